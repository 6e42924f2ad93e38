import Verif.Vec
import Verif.Callable
import Verif.Machine
import Verif.Spec
import Verif.Mach.StepR
import Verif.Mach.Struct
import Verif.Mach.Blocks
import Verif.Mach.Lists
import Verif.Mach.Conserve
import Verif.Mach.Inv
import Verif.Mach.Flags
import Verif.Mach.Trace
import Verif.Mach.Emis
import Verif.Mach.Disc
import Verif.Props.Equality
import Verif.Props.ListOps
import Verif.Mach.Hist
import Verif.Mach.Shape
import Verif.Mach.StepL
import Verif.Demo
import Verif.Props.Lists
import Verif.Props.Emission
import Verif.Props.Calls
import Verif.Mach.Alive
import Verif.Mach.Erase
import Verif.Mach.Fresh
import Verif.Mach.Rem
import Verif.Props.Disconnect
import Verif.Props.Handles
import Verif.Props.Block
import Verif.Props.Erase
import Verif.Props.Connect
import Verif.Props.Tracked
import Verif.Mach.Life
import Verif.Props.Progress
import Verif.Props.Safety
import Verif.Props.Terminate
import Verif.Props.Fair
import Verif.Mach.Reenter
import Verif.Props.Reenter
import Verif.Fine
import Verif.Mach.Fine
import Verif.Mach.FineSim
import Verif.Props.Fine
import Verif.Props.Count
import Verif.Props.Apart
import Verif.Props.Order
import Verif.Props.Teardown
import Verif.Props.Who
import Verif.Props.Pin
import Verif.Conform
import Verif.Props.Lifetime
import Verif.Props.Alloc
import Verif.Memory
import Verif.Mach.Mem
import Verif.Mach.Clock
import Verif.Mach.Foot
import Verif.Mach.Race
import Verif.Mach.RaceStep
import Verif.Mach.Cover
import Verif.Mach.Reads
import Verif.Props.Race
import Verif.Data.Cow
import Verif.Data.CowRef
import Verif.Data.Optional
import Verif.Data.OptKept
import Verif.Data.OptCmp
import Verif.Data.OptRef
import Verif.Data.Iter
import Verif.Data.Combiner
import Verif.Data.SlotObj
import Verif.Data.IntSeq
import Verif.Data.Dispatch
import Verif.Seq
import Verif.Props.Seq
import Verif.Props.SeqTotal
import Verif.Props.Atomic
import Verif.Props.Silence
import Verif.Props.FairAny
