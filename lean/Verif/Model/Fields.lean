import Verif.Model.Indexed
/-! # The public field `source_map` of the consumers

`source_map` is the only public field of the two consumers; whoever has the consumer may assign to it. -/

namespace RSM

variable {E : Env}

/-- `/repo/src/consumer.rs` 116, `pub source_map` of `BasicConsumer`: an assignment by the caller. -/
def BasicConsumer.assign (c : BasicConsumer E) (m : SourceMapJson) : BasicConsumer E := { c with sourceMap := m }

/-- `/repo/src/consumer.rs` 478, `pub source_map` of `IndexedConsumer`: an assignment by the caller. -/
def IndexedConsumer.assign (c : IndexedConsumer E) (m : SourceMapJson) : IndexedConsumer E := { c with sourceMap := m }

end RSM
