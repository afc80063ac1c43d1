import Verif.Model.Consumer
import Verif.Props.Iblt
import Verif.Props.State
import Verif.Props.Bloom
import Verif.Props.ProducerBase
import Verif.Props.SegPub
import Verif.Props.FullSync
import Verif.Props.FullMerge
import Verif.Props.FullPending
import Verif.Props.FullTimers
import Verif.Props.FullAnswer
import Verif.Props.Replies
import Verif.Props.PartialSync
import Verif.Props.Consumer
import Verif.Props.ConsumerWire
import Verif.Props.Malformed
import Verif.Props.Group
import Verif.Props.GroupMixed
import Verif.Props.PubSub
import Verif.Props.Owed
import Verif.Props.ConsumerAlive
import Verif.Props.GroupSafe
import Verif.Props.PubSubSafe
import Verif.Props.ManySample
import Verif.Props.Examples
import Verif.Props.ExamplesPrint
import Verif.Props.ExamplesProduce
import Verif.Props.NackLater
import Verif.Props.Fair
import Verif.Proofs.WaitOut
import Verif.Proofs.StoreTime
import Verif.Proofs.FairTimed
import Verif.Props.WaitOut
import Verif.Props.FairTimed
import Verif.Proofs.Acts
import Verif.Proofs.Pace
import Verif.Proofs.Spaced
import Verif.Props.Pace
import Verif.Props.PubSubLive
import Verif.Proofs.Kept
import Verif.Props.Kept
import Verif.Proofs.Retry
import Verif.Props.Retry
import Verif.Proofs.Stale
import Verif.Props.Stale
import Verif.Spec.Told
import Verif.Proofs.Told
import Verif.Props.Told
import Verif.Spec.ExampleRun
import Verif.Proofs.ExampleRun
import Verif.Props.ExampleRun
import Verif.Props.Arrival
import Verif.Props.Fetchable
import Verif.Spec.AppGroup
import Verif.Proofs.AppGroup
import Verif.Props.AppGroup
import Verif.Props.AppGroupSample
import Verif.Proofs.FairAny
import Verif.Proofs.FairPrompt
import Verif.Props.FairPrompt
import Verif.Spec.ConsumerRun
import Verif.Proofs.ConsumerPace
import Verif.Props.ConsumerPace
import Verif.Spec.PubSubPrompt
import Verif.Proofs.PubSubPrompt
import Verif.Props.PubSubPrompt
import Verif.Spec.AppGroupPrompt
import Verif.Proofs.AppGroupPrompt
import Verif.Props.AppGroupPrompt
import Verif.Props.AppGroupPromptSample
import Verif.Spec.ExampleDuo
import Verif.Proofs.ExampleDuo
import Verif.Props.ExampleDuo
import Verif.Model.Lifetime
import Verif.Spec.Lifetime
import Verif.Proofs.Lifetime
import Verif.Props.Lifetime
import Verif.Model.Ieee
import Verif.Spec.Ieee
import Verif.Proofs.Ieee
import Verif.Proofs.IeeeThousandths
import Verif.Proofs.IeeeLibm
import Verif.Proofs.IeeeSize
import Verif.Props.Ieee
import Verif.Spec.InterestSafe
import Verif.Proofs.InterestSafe
import Verif.Props.InterestSafe
import Verif.Spec.PublishExact
import Verif.Props.PublishExact
import Verif.Proofs.IbltRange
import Verif.Spec.Flow
import Verif.Proofs.Flow
import Verif.Props.Flow
import Verif.Spec.PacketSize
import Verif.Proofs.PacketSize
import Verif.Props.PacketSize
import Verif.Model.Salts
import Verif.Spec.Salts
import Verif.Props.Salts
import Verif.Spec.ConsumerCause
import Verif.Props.ConsumerCause
import Verif.Spec.RetryFate
import Verif.Props.RetryFate
import Verif.Model.Compression
import Verif.Spec.Compression
import Verif.Props.Compression
import Verif.Spec.Options
import Verif.Props.Options
import Verif.Spec.Served
import Verif.Proofs.ConsumerName
import Verif.Props.Served
import Verif.Model.ConsumerOptions
import Verif.Spec.ConsumerOptions
import Verif.Props.ConsumerOptions
import Verif.Spec.Accurate
import Verif.Proofs.Accurate
import Verif.Props.ConsumerAccurate
import Verif.Spec.Replica
import Verif.Props.Replica
import Verif.Spec.AskRate
import Verif.Proofs.AskRate
import Verif.Props.AskRate
import Verif.Spec.OtherGroup
import Verif.Props.OtherGroup
import Verif.Model.CommandLine
import Verif.Spec.CommandLine
import Verif.Props.CommandLine
import Verif.Model.Print
import Verif.Spec.Print
import Verif.Props.Print
import Verif.Model.Register
import Verif.Spec.Register
import Verif.Props.Register
import Verif.Spec.Sizes
import Verif.Props.Sizes
import Verif.Spec.ConsumerSize
import Verif.Props.ConsumerSize
import Verif.Spec.Memory
import Verif.Props.Memory
import Verif.Spec.Twins
import Verif.Props.Twins
import Verif.Props.Restart
import Verif.Props.MalformedFull
import Verif.Props.Removed
import Verif.Props.Poison
import Verif.Props.ExamplesLater
import Verif.Props.WireExact
import Verif.Props.Overlooked
import Verif.Props.Accumulate
import Verif.Props.Bounded
import Verif.Props.Stuck
import Verif.Props.Once
import Verif.Props.Order
import Verif.Props.Twin
import Verif.Props.Rest
import Verif.Props.Heard
import Verif.Props.Snapshot
import Verif.Props.Mention
import Verif.Props.Own
import Verif.Props.Often
import Verif.Props.Seldom
import Verif.Props.Filled
