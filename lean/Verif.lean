import Verif.Signature
import Verif.Core
import Verif.Spec
import Verif.Examples
import Verif.CoreLemmas
import Verif.CoreFields
import Verif.CoreInv
import Verif.SlotLemmas
import Verif.Hoare
import Verif.LogInv
import Verif.Termination
import Verif.Death
import Verif.LoopShape
import Verif.LoopLemmas
import Verif.DeliveryLemmas
import Verif.Props.Slots
import Verif.Props.Emission
import Verif.Props.Death
import Verif.Props.Delivery
import Verif.Props.Reemission
import Verif.BlockLemmas
import Verif.Props.BlockPause
import Verif.SigLemmas
import Verif.Props.Connect
import Verif.QueueLemmas
import Verif.Props.Queue
import Verif.GroupLemmas
import Verif.Props.Group
import Verif.Py
import Verif.EventedList
import Verif.EventedListSpec
import Verif.EventedListLemmas
import Verif.EventedListEvents
import Verif.EventedListMove
import Verif.EventedListChildren
import Verif.Props.EventedList
import Verif.EventedDict
import Verif.EventedDictSpec
import Verif.EventedDictLemmas
import Verif.EventedDictEvents
import Verif.Props.EventedDict
import Verif.EventedSet
import Verif.EventedSetSpec
import Verif.EventedSetLemmas
import Verif.EventedSetSteps
import Verif.EventedSetSim
import Verif.EventedSetOrder
import Verif.Props.EventedSet
import Verif.Selection
import Verif.SelectionSpec
import Verif.SelectionLemmas
import Verif.SelectionInv
import Verif.SelectionOps
import Verif.SelectionList
import Verif.SelectionListActive
import Verif.Props.Selection
import Verif.WeakCallback
import Verif.WeakCallbackLemmas
import Verif.WeakCallbackSpec
import Verif.WeakCallbackCalls
import Verif.Props.WeakCallback
import Verif.Pickle
import Verif.PickleLemmas
import Verif.Props.Pickle
import Verif.Instances
import Verif.InstancesInv
import Verif.Props.Instances
import Verif.Throttle
import Verif.ThrottleLemmas
import Verif.ThrottleInv
import Verif.ThrottleMicro
import Verif.Props.Throttle
import Verif.Dataclass
import Verif.DataclassLemmas
import Verif.Props.Dataclass
import Verif.Proxy
import Verif.Props.Proxy
import Verif.EvModel
import Verif.EvModelInv
import Verif.EvModelOnce
import Verif.EvModelField
import Verif.Props.EvModel
import Verif.Monitor
import Verif.MonitorLemmas
import Verif.MonitorInv
import Verif.Props.Monitor
import Verif.Conc
import Verif.ConcLemmas
import Verif.ConcEmitter
import Verif.Props.Conc
import Verif.ConcCore
import Verif.ConcCoreLemmas
import Verif.Props.ConcCore
import Verif.FastConcCore
import Verif.FastConcCoreLemmas
import Verif.FastConcLocks
import Verif.Props.FastConcCore
import Verif.Resume
import Verif.ResumeLemmas
import Verif.ResumeSingle
import Verif.ResumeExact
import Verif.ResumeUnpaused
import Verif.Props.Resume
import Verif.Props.Change
import Verif.Descriptor
import Verif.DescriptorInv
import Verif.Props.Descriptor
import Verif.QueueConc
import Verif.QueueConcLemmas
import Verif.Props.QueueConc
import Verif.ConcDepth
import Verif.Props.ConcDepth
import Verif.FastConc
import Verif.FastConcLemmas
import Verif.FastConcCalls
import Verif.FastConcDepth
import Verif.FastConcSlow
import Verif.Props.FastConc
import Verif.GroupClass
import Verif.GroupClassLemmas
import Verif.GroupClassInv
import Verif.GroupClassGroups
import Verif.Props.GroupClass
import Verif.ConcQueued
import Verif.ConcEmits
import Verif.Props.ConcQueued
import Verif.Bind
import Verif.BindLemmas
import Verif.Props.Bind
import Verif.GroupConc
import Verif.GroupConcLemmas
import Verif.GroupConcLink
import Verif.GroupConcHear
import Verif.GroupConcSingle
import Verif.Props.GroupConc
import Verif.ModelUpdate
import Verif.ModelUpdateLemmas
import Verif.Props.ModelUpdate
import Verif.ModelClass
import Verif.ModelClassLemmas
import Verif.Props.ModelClass
import Verif.TypeCheck
import Verif.TypeCheckLemmas
import Verif.Props.TypeCheck
import Verif.Patch
import Verif.PatchLemmas
import Verif.Props.Patch
import Verif.GroupShare
import Verif.GroupShareLemmas
import Verif.Props.GroupShare
import Verif.QtTimers
import Verif.QtTimersLemmas
import Verif.Props.QtTimers
import Verif.EventedListNested
import Verif.EventedDictNested
import Verif.Props.Nested
import Verif.EventedSetNested
import Verif.Props.SetNested
import Verif.EventedListExact
import Verif.EventedDictExact
import Verif.Props.Exact
import Verif.GroupQueued
import Verif.Props.GroupQueued
import Verif.GroupLatest
import Verif.Props.GroupLatest
import Verif.ErrorMessage
import Verif.ErrorMessageLemmas
import Verif.Props.ErrorMessage
import Verif.Fields
import Verif.FieldsLemmas
import Verif.Props.Fields
import Verif.DataclassNested
import Verif.DataclassNestedLemmas
import Verif.Props.DataclassNested
import Verif.SelectionNested
import Verif.SelectionNestedLemmas
import Verif.SelectionNestedCurrent
import Verif.SelectionNestedQuiet
import Verif.Props.SelectionNested
import Verif.LazyThreads
import Verif.LazyThreadsLemmas
import Verif.LazyThreadsStable
import Verif.Props.LazyThreads
import Verif.Decompile
import Verif.DecompileLemmas
import Verif.Props.Decompile
import Verif.Temporary
import Verif.TemporaryLemmas
import Verif.Props.Temporary
import Verif.EventedCopy
import Verif.EventedCopyLemmas
import Verif.Props.EventedCopy
import Verif.Direct
import Verif.DirectLemmas
import Verif.Props.Direct
import Verif.QtSlot
import Verif.QtSlotLemmas
import Verif.Props.QtSlot
import Verif.ThrottleSlot
import Verif.ThrottleSlotLemmas
import Verif.Props.ThrottleSlot
import Verif.SelectionMove
import Verif.Props.SelectionMove
import Verif.Props.PyList
import Verif.EventedDictRef
import Verif.ChildEvents
import Verif.ChildEventsLemmas
import Verif.Props.ChildEvents
import Verif.Copies
import Verif.CopiesLemmas
import Verif.Props.Copies
import Verif.Separate
import Verif.SeparateLemmas
import Verif.Props.Separate
import Verif.ConcSep
import Verif.ConcSepLemmas
import Verif.Props.ConcSep
import Verif.Ends
import Verif.EndsLemmas
import Verif.NeverLemmas
import Verif.Props.Ends
import Verif.Modes
import Verif.ModesLemmas
import Verif.Props.Modes
import Verif.Managers
import Verif.ManagersLemmas
import Verif.ManagersApart
import Verif.Props.Managers
import Verif.Callers
import Verif.CallersLemmas
import Verif.Props.Callers
import Verif.Swap
import Verif.SwapLemmas
import Verif.SwapSim
import Verif.Props.Swap
import Verif.Watch
import Verif.WatchLemmas
import Verif.WatchSim
import Verif.Props.Watch
import Verif.Hook
import Verif.Props.Hook
import Verif.ConnConc
import Verif.ConnConcLemmas
import Verif.ConnConcHist
import Verif.Props.ConnConc
import Verif.Props.ConnConcCore
import Verif.EqOps
import Verif.EqOpsLemmas
import Verif.Props.EqOps
import Verif.AttrConc
import Verif.AttrConcLemmas
import Verif.Props.AttrConc
import Verif.DelayConc
import Verif.DelayConcLemmas
import Verif.DelayConcAlone
import Verif.DelayConcMirror
import Verif.Props.DelayConc
import Verif.DictConc
import Verif.DictConcLemmas
import Verif.Props.DictConc
import Verif.ListConc
import Verif.ListConcLemmas
import Verif.Props.ListConc
import Verif.SetConc
import Verif.SetConcLemmas
import Verif.Props.SetConc
import Verif.SetTurns
import Verif.DictTurns
import Verif.ListTurns
import Verif.Props.Turns
import Verif.AttrTurns
import Verif.DelayTurns
import Verif.Props.AttrTurns
import Verif.Props.DelayTurns
import Verif.Lock
import Verif.Props.Lock
import Verif.Block
import Verif.SetBlock
import Verif.Props.Block
import Verif.Props.SetBlock
import Verif.Props.BlockInv
import Verif.Props.BlockMirror
import Verif.Props.BlockStory
import Verif.Props.SetMirror
import Verif.Props.LockMirror
import Verif.Update
import Verif.Props.Update
import Verif.Props.UpdateMirror
