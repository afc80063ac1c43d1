import Verif.Spec.Compare
/-!
Nodes of one group.
-/
namespace PSync.Spec

/-- What the nodes of a group must agree on: the IBF size, the sync prefix and the compression.  (Lifetimes,
jitter, versions and store sizes are each node's own.) -/
structure SameProtocol (cfg cfg' : Cfg) : Prop where
  expected : cfg'.expected = cfg.expected
  syncPrefix : cfg'.syncPrefix = cfg.syncPrefix
  ibltCodec : cfg'.ibltCodec = cfg.ibltCodec
  contentCodec : cfg'.contentCodec = cfg.contentCodec

end PSync.Spec
