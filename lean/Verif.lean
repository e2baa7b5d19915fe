import Verif.Props.SortedDeque
import Verif.Props.Reader
import Verif.Props.RWLock
import Verif.Props.Consumer
import Verif.Props.SBWitness
import Verif.Props.StreamSource
import Verif.Props.SourceReader
import Verif.Props.SimplyWitness
import Verif.Props.Misc
import Verif.Props.ReaderObjs
import Verif.Props.EndToEndWitness
import Verif.Props.CounterWitness
import Verif.Props.HttpWitness
import Verif.Props.JoinWitness
import Verif.Props.LinearWitness
import Verif.Props.SourceThreadsWitness
import Verif.Props.RWInterrupt
import Verif.Props.AliveWitness
import Verif.Props.CarefulWitness
import Verif.Props.LoopWitness
import Verif.Props.ServedWitness
import Verif.Props.DrainWitness
import Verif.Props.Poll
import Verif.Props.WholePathWitness
import Verif.Props.SourcePathWitness
import Verif.Props.FileLinesWitness
import Verif.Proofs.RaisingLink
import Verif.Props.RaisingWitness
import Verif.Props.DocLoopWitness
import Verif.Props.BrokenWitness
import Verif.Props.LineWitness
import Verif.Props.NextWitness
import Verif.Props.PlainReadWitness
import Verif.Props.RaisingOk
import Verif.Props.PastWitness
import Verif.Props.KinWitness
import Verif.Props.Kin3
import Verif.Props.AutoDropWitness
import Verif.Props.Before
import Verif.Props.SharedReader
import Verif.Props.Errors
import Verif.Props.FairWitness
import Verif.Props.Forget
import Verif.Props.FailedStart
import Verif.Props.TrueParts
import Verif.Props.Direct
import Verif.Model.ObjSource
import Verif.Props.ObjSource
import Verif.Props.ObjSourceWitness
import Verif.Props.RWLive
import Verif.Props.RWLiveWitness
import Verif.Props.LoopLeft
import Verif.Props.LoopLeftWitness
import Verif.Props.IterBuffer
import Verif.Props.IterWitness
import Verif.Props.Seek
import Verif.Props.RaisingFind
import Verif.Props.Fair2
import Verif.Props.Fair2Witness
import Verif.Model.QuickSource
import Verif.Spec.Quick
import Verif.Props.Quick
import Verif.Props.QuickWitness
import Verif.Spec.Calls
import Verif.Model.Cost
import Verif.Proofs.Cost
import Verif.Props.Cost
import Verif.Props.CostWitness
import Verif.Props.StartEnds
import Verif.Props.StartEndsWitness
import Verif.Props.CallsEnd
import Verif.Props.CallsEndWitness
import Verif.Model.Launch
import Verif.Props.Launch
import Verif.Props.LaunchWitness
import Verif.Model.Aged
import Verif.Spec.Noted
import Verif.Props.Aged
import Verif.Props.AgedWitness
import Verif.Model.Iterate
import Verif.Spec.Iterate
import Verif.Props.Iterate
import Verif.Props.IterateWitness
import Verif.Proofs.Onward
import Verif.Props.Onward
import Verif.Props.OnwardWitness
import Verif.Model.Fine
import Verif.Proofs.Fine
import Verif.Proofs.FineStep
import Verif.Proofs.FineInv
import Verif.Props.Fine
import Verif.Props.FineWitness
import Verif.Proofs.LinearFair
import Verif.Proofs.Paused
import Verif.Proofs.FineSim
import Verif.Proofs.FineRun
import Verif.Props.FineLive
import Verif.Props.FineLiveWitness
import Verif.Model.Interrupt
import Verif.Proofs.Interrupt
import Verif.Props.Interrupt
import Verif.Props.InterruptWitness
import Verif.Spec.Overlap
import Verif.Props.Overlap
import Verif.Props.OverlapWitness
import Verif.Props.FairDrop
import Verif.Props.FairDropWitness
import Verif.Props.FairCounterWitness
import Verif.Spec.Mover
import Verif.Model.Mover
import Verif.Proofs.Mover
import Verif.Props.Mover
import Verif.Props.MoverWitness
import Verif.Props.NoRoom
import Verif.Props.NoRoomWitness
import Verif.Props.AgedReader
import Verif.Props.AgedReaderWitness
import Verif.Props.MkReader
import Verif.Props.Nap
import Verif.Props.NapWitness
import Verif.Props.ReaderNap
import Verif.Props.ReaderNapWitness
import Verif.Props.AgedReaderAll
import Verif.Props.AgedReaderAllWitness
import Verif.Props.Settings
import Verif.Props.Swap
import Verif.Props.SwapWitness
