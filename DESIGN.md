# Formal model of psygnal in Lean 4 — design

Source under study: `/repo/src/psygnal` (read as text; never built or run).
Everything machine-checked lives in `lean/Verif`; `lake build` in `lean/` checks it.

## Trusted base

* Lean 4.33.0's kernel and the three standard axioms `propext`, `Classical.choice`, `Quot.sound`.
  No own axioms, no `sorry`, no `native_decide`, no `bv_decide`.
* The hand-written model: that each definition says what the cited Python lines do.  Every
  definition cites file and lines.  Python's own semantics (list iteration re-reads the live list
  by index, `finally` always runs, `with` calls `__exit__`, dicts keep insertion order,
  truth value of an object with `__len__`) is built into the model by hand.
* The semantics of the Python built-ins and of `collections.abc` on which the containers rest (`Py.lean`: list
  indexing, slices as in the language reference, `insert`, `pop`; the mixin methods of `MutableSequence`,
  `MutableMapping`, `MutableSet`).  They are not part of /repo, so the model states them by hand; for lists the `C27_ref_`
  theorems (`Props/PyList.lean`) compare the definitions with the documented meaning of indices and slices, and `EventedDictRef.lean` describes dicts once more, by a
  function of the keys and the order of insertion (`C30_reference_partial`).
* What is *not* modelled anywhere: what mypyc compiles (the files that `decompile` renames: C72), the inside of Qt (its rules are
  stated in C63 and C76), warnings, `repr`s (the message of `EmitLoopError`: C67), the generated type stubs, the pyinstaller hook,
  Python's own stack limit, memory errors.

## Architecture

| module | models | style |
|---|---|---|
| `Signature` | `_acceptable_posarg_range`, positional binding | functions on lists |
| `Core` | `SignalInstance`, `SignalRelay`, `QueuedCallback`, `emit_queued`, blockers/pausers, debug hook, weakref death | fuel interpreter over *procedures* (`Task`), user code deep-embedded (`Prog`) so theorems quantify over all callbacks |
| `Core*Lemmas` | induction principle over executions (fuel-free), frame lemmas | |
| `Conc`, `Resume`, `QueueConc`, `FastConc` | the same engine with threads: locks and loops; pause/resume; queued callbacks; `emit_fast` | small-step interleavings, a schedule is a list of thread numbers |
| `GroupConc` | a group, its members, other signals, threads | small-step interleavings |
| `ModelUpdate` | trees of evented models: `update`, `reset`, `==` | recursive functions |
| `ModelClass` | hierarchies of classes of evented models (`EventedMetaclass`) | class statements one after the other |
| `TypeCheck` | `check_types` on connect and emit, for one signal | programs are lists of operations |
| `Patch` | lazily patched `__setattr__` in class hierarchies, with user-written `__setattr__` | programs are lists of operations |
| `GroupShare` | group classes given to several descriptors, `collect_fields`, aliases that leak | programs are lists of operations |
| `QtTimers` | Qt timers per thread that call `emit_queued`, nested event loops | schedules are lists of moves; atomic steps of threads |
| `EventedListNested`, `EventedDictNested` | listeners that operate on the container (`Prog`, `exec`, `listening` in `EventedList`, `EventedDict`) | programs over the operations; depth of nesting is a parameter |
| `EventedSetNested` | listeners that operate on the set (`drain`, `deliver`, `Prog`, `exec`, `listening` in `EventedSet`) | programs over the operations; emissions made by listeners wait, as `items_changed` is `reemission="queued"` |
| `EventedListExact`, `EventedDictExact` | the events each operation is to emit (`expected`), as a function of contents and operation | specifications, no new code |
| `ErrorMessage` | `EmitLoopError.__init__`, `_build_psygnal_exception_msg`, `_fmt_locals`, the `except` clauses of `_run_emit_loop`, `emit_fast`, `emit_queued` | the message is a list of its pieces; `str`, `repr`, `bool`, `inspect.stack`, `inspect.getinnerframes` and the text of a frame are arbitrary and may raise; `Core` assumes that the message can be made |
| `Fields` | `iter_fields`, `evented`, `is_evented`, `get_evented_namespace`, `__set_name__`; with `Dataclass`: the group | a class is its chain of bases; what the libraries store on a class follows their documentation; no multiple inheritance, no private attributes of pydantic |
| `DataclassNested` | `_setattr_and_emit_`, `_changes_emitted`, `_run_emit_loop`, `_run_emit_loop_immediate` with listeners that are programs on the object | listeners fixed; each field its own signal; the original `__setattr__` changes only the assigned field; flags in the state record recursion errors, failed emissions and assignments during a report, for the statements |
| `SelectionNested` | the methods of `Selection` and `EventedSet` with listeners that are programs on the selection; `_run_emit_loop_queued`, `resume`, `paused` | as `Selection`; parent fixed; at least one listener for each signal; arguments of methods are not the selection itself; bounded nesting, a flag records that a listener raised or a bound was reached |
| `LazyThreads` | `Signal.__get__`, `SignalGroupDescriptor.__get__`, `EventedObjectProxy.events` as programs of single dict operations, with threads | one object that stays alive and one attribute; making the object is one step; the class of the group (`_get_signal_group`) exists already |
| `Decompile` | `decompile`, `recompile` | the list of files is read before the renamings of one extension; names as lists of parts between dots; renaming as on POSIX; no I/O errors |
| `Temporary` | `no_class_attributes`, `EventedModel.enums_as_values` (both versions) | the settings and the readings of them only; what pydantic does with them is outside |
| `EventedCopy` | `SignalGroupDescriptor.__get__`, the patched `__setattr__`, `SignalGroup.__deepcopy__`, `copy.copy`/`copy.deepcopy` of the `__dict__` | one class; objects stay alive; callbacks do nothing to the objects; every field has a signal |
| `Direct` | `SignalRelay.connect_direct`, `SignalRelay.disconnect`, relay bookkeeping, `_is_uniform`, `strict` in `SignalGroup.__init_subclass__`, with the checks of `connect` (from `TypeCheck`) | one group; callbacks return at once; no priorities, blocking, pausing; reserved names: C54 |
| `QtSlot` | `_guess_qtsignal_signature`, `_ridiculously_call_emit`, the string case of `_acceptable_posarg_range`, `_check_nargs`, the reference made by `connect` | what the Qt libraries say about their signals is a specification (`Qt.callee`); no type checks, `unique`, threads |
| `ThrottleSlot` | `throttled`, `debounced`, throttlers connected to signals and the references to them | on top of `Throttle`; methods run as a whole, functions return; the slots of all signals in one list; default priority, no `unique`, threads, queues |
| `ChildEvents` | emissions of attributes and group members of children around an `EventedList` (`emit`, `emit_fast`, relays, current emitter) | default re-emission mode, no blocking; programs are lists of operations and emissions |
| `Copies` | containers as objects with memory cells for contents and group; `copy`, slices, `deepcopy`, hash and equality of lists | C80 |
| `Separate` | division of signals, callbacks, objects and memory into two sides; code of one side; what a side sees | C81 |
| `ConcSep` | threads and signals divided into two sets | C82 |
| `Ends` | which calls callbacks and programs may make | C83 |
| `Modes` | the same signals with other modes; levels of signals and callbacks | C84 |
| `Managers` | context managers of `blocked()`, `paused()` as values; histories of their steps in several threads | C85 |
| `Callers` | several signals that share callback objects; deaths of the objects, garbage collection of the callbacks | C86 |
| `Swap` | programs that differ in `emit` and `emit_fast` (vocabulary on `Core`, no new model code) | C87 |
| `Watch` | programs that have nothing to do with a watching callback (vocabulary on `Core`, no new model code) | C88 |
| `Hook` | `hook-psygnal.py`: `binary_files`, `create_hiddenimports` over paths as lists of components | C89 |
| `ConnConc` | one signal, threads and the garbage collector: `connect`, `disconnect`, `in`, `len`, `emit`, `_try_discard` in single steps | C90 |
| `EqOps` | dicts of equality operators: attributes of classes, the global dict, how descriptors fill them and comparisons change them | C91 |
| `AttrConc` | assignments of evented attributes in several threads: reading, storing, reading again, comparing and emitting as separate steps | C92 |
| `DelayConc` | evented models with dependent properties in several threads: counter of delays, queue of changes, primary changes, each access a step | C93 |
| `DictConc` | an evented dictionary in several threads: each access to `_dict` and each emission a step; `pop`, `setdefault` as programs | C94 |
| `ListConc` | an evented list in several threads: each access to `_data` and each emission a step; `append`, `pop` as programs | C95 |
| `SetConc` | an evented set in several threads: each access to `_data`, `_is_paused` and `_args_queue` and each delivery a step; bulk methods under `paused()` | C96 |
| `SetTurns`, `DictTurns`, `ListTurns` | the thread models of C94 to C96 compared with the models of C30, C27/C28 and C31 | C97 |
| `AttrTurns`, `DelayTurns` | the thread models of C92 and C93 compared with the models of C39 and C40 | C98 |
| `Lock` | a lock of user code around the operations of the thread models of C92 to C96 | C99 |
| `Block`, `SetBlock` | a lock of user code around blocks of operations, for the thread models of C94, C95 and C96 | C100 |
| `Update` | blocks of reads and assignments of evented attributes under a lock of user code, for the thread model of C92 | C101 |
| `GroupClass` | `SignalGroup` subclasses, their instances, attribute lookup | classes with a given MRO; programs are lists of operations |
| `Throttle*` | `Throttler`, `Debouncer` and their timer threads | discrete-time transition system |
| `WeakCallback*`, `Pickle`, `Instances`, `Descriptor` | `weak_callback` and `.cb`; pickling; caches of signals and groups on objects | functions; histories of events |
| `EventedList*`, `EventedDict*`, `EventedSet*`, `Selection*`, `Proxy` | containers | state × event log; refinement to plain list/dict/set |
| `Dataclass`, `Bind`, `EvModel` | evented dataclasses, bindings of attributes, `EventedModel` change queue | functions/interpreter |
| `Monitor` | `monitor_events` and hooks | bodies as trees, simulation |
| `Props/*` | the property theorems, apart from helper lemmas | |

The engine is one function `exec : fuel → Task → World → Option (World × Result)`; `none` only means
"fuel not sufficient".  `Runs t w w' r := ∃ n, exec n t w = some (w', r)`.  Fuel is a device to make
the interpreter total; all theorems are about `Runs`, hence about every terminating execution,
without bound on depth or length.  A generic induction principle over executions
(`Runs.induct`) gives invariants "for all user programs".

Properties that the code *violates* are kept in full in `properties.jsonl`; for these we prove the
negation on a concrete witness (`..._refuted`) and the strongest true part as `..._partial`.

## Per property: what is modelled and how it is proved

Core (`Core.lean`, all user programs, one thread of control):

* **C01** sorted-by-priority + stability: invariant over all executions; a ghost serial number per connection says
  which came first.
* **C02/C03** refinement of the slot list operations to a specification on lists of keys; C03 as invariant over
  executions in which all connections are unique.
* **C04** ghost event log with a number per emission loop; the log of one emission restricted to its own loop is the
  list of slots, in order, once each.
* **C05** Hoare-style invariant: the emitter seen inside a callback, and restored after.
* **C06** both directions of "an `EmitLoopError` comes out iff a callback raised", with the cause.
* **C07/C08** invariants at rest, depth = nesting, well-founded measure for termination.
* **C09/C10/C11** decomposition of the event log around a nested emission; queue discipline; recursion-depth
  bookkeeping of latest-only.
* **C12/C13** no-op lemmas for one emission, then silence for whole programs, contexts as a bracket on programs;
  `resume` as a loop of emissions resp. a fold.
* **C14** `emit_fast` and `emit` deliver to the same callbacks.
* **C15** invariant "no slot owned by a dead object is connected"; no `call` event on dead owners.
* **C16** Python's binding rule (`bindsPos`) against `_acceptable_posarg_range`, for all signatures.
* **C17/C18** `put`/`call` events against the queue of each thread.
* **C19–C22** relays: invariant "a connected group is connected to all its members", one-emission theorems (for members in queued mode one
  for each value delivered, `GroupQueued`; for latest-only members one if no newer value is accepted, `GroupLatest`),
  contexts, and witnesses where the code deviates.

Containers (state and event log; listeners observe and may raise, they do not themselves operate on the container, except in C64):

* **C27** `EventedList.step` against `pyStep` on built-in lists, for all sequences of operations.
* **C28** grammar of logs (`Eff`) as invariant over all operations, then replay by induction over it.
* **C29** positions as orders of indices; one step of the plan moves the next source (`order_step`).
* **C35** counting invariant on connections per signal.

* **C30** `EventedDict.lean` (ns `ED`): every operation of the dict, with type checks, unhashable keys and raising
  listeners; refinement to a built-in dict over operation sequences (`C30_run_partial`), events replayed by an observer
  (`C30_observer`), grammar of announcements (`C30_announced`).
* **C31** `EventedSet.lean` (ns `ES`): the three set classes share one model; `place` says where a new element shows up
  in the iteration.  Specification `PySet` in set-theoretic terms.  Loop invariant for collected changes (`Acc`), then
  case analysis over all operations (`step_good`); histories by induction.  Independence of listeners by simulation
  (`EventedSetSim.lean`).
* **C32** ghost history of the primitive calls; `Born h x n` says declaratively that call `n` is the first insertion
  of `x` since its last removal; invariant `InOrder` over all operations and any listeners.
* **C33** `Selection.lean` (ns `Sel`): `_update_active` and the setter of `active` call each other; the methods take
  `_update_active` as a parameter and the knot is tied with a nesting bound, which is shown not to matter
  (`C33_depth`).  Invariant `K` with a flag for "the setter of `active` is under way" (`Pend`), kept by every primitive,
  loop and pause; histories by induction, for a selection and for a list with a selection.
* **C34** invariant `Held` over all methods, without any assumption on the listeners of the selection.  Listeners of the
  list's own events do not raise in the model.

Single pieces:

* **C23/C24** `WeakCallback.lean` (ns `WC`): callables as an inductive type, what a call does as a list of actions;
  `weak_callback` case by case; keywords of nested partials are merged, the outer ones win (`WC.C23_keywords`).  `Target` and `Denotes` say without reference to keys what a callable denotes.
* **C25** `Pickle.lean`: `__getstate__`/`__setstate__` and the operations on a copy; simulation between the copy and the
  original without its weak slots, over all sequences of operations.
* **C26** `Instances.lean` (ns `Inst`): heap with address reuse, instance dicts, caches, finalizers and copies; invariant over all
  histories.
* **C36–C38** `Throttle.lean` (ns `Thr`): methods as programs of single attribute accesses, `threading.Timer` with late
  firing and threads that stay alive for a while after `cancel`; a machine that runs methods as a whole, one with threads,
  and a proof that the first is a special case of the second.  The whole-method machine depends on the current timer only
  (`step_view`); invariants on that view.

* **C39/C41/C42** `Dataclass.lean` (ns `DC`): values are opaque, operators are arbitrary functions that may raise
  (`Env`), the original `__setattr__` is arbitrary (`Setter`).  `target` says declaratively which signal a field gets;
  `LoopOk` is the invariant of the loop over the fields.  `Answer` says which operator decides.  Listeners raise or not, they
  do not assign attributes themselves.

* **C40** `EvModel.lean` (ns `EM`): the model's private bookkeeping, user code (property setters, callbacks) as an arbitrary
  tree of reads and assignments, interpreted with a nesting bound that does not matter (`C40_depth`).  Invariant (`Book`,
  `Views`): the recorded old value of a name is what its listeners will have been told once the pending emissions are
  done; a name that is not recorded has that value.  Metaclass: `Decl`.  `C40_unread` (no assumption on getters) follows one
  assignment of a field through the comparisons (`EvModelField.lean`).
* **C43** `Proxy.lean` (ns `Proxy`): the wrapped object is an arbitrary state machine; simulation between operations
  through the proxy and on the object.  `wrapt` is part of the trusted base.

* **C44** `Monitor.lean` (ns `Mon`): lists of slots of all signals, relays of groups, the hook; the body of the `with`
  statement is an arbitrary tree.  `strip b` is the same code without monitors; simulation between the two, invariants for
  reports and relays.  That monitors neither swallow nor make up exceptions:
  `C44_exceptions`.
* **C45/C46/C47** `Conc.lean` (ns `Conc`): small steps, any number of threads, signals and callbacks; what threads and
  callbacks do is an arbitrary tree (`Code`); a schedule is a list of thread numbers.  `Locks`: the count of an `RLock` is the
  number of places on the owner's stack that hold it.  C45: `Serial`, the log is explained by the lock owners.  C46:
  `Chain`, the saved emitters form a chain, if one thread at a time is in emissions.  C47: locks on a stack have increasing
  ranks (`Ranked`); a thread that waits leads to one that waits for a higher lock.  Any thread may change the list of
  callbacks at any time, with the lock (`hold`) or without, the loops read the live list by index; `emit_fast` is left out
  (it takes no lock, so C45 does not hold for it).  `ConcCore.lean` translates code into programs of `Core` and shows, procedure by
  procedure (`Sim`), that a thread that runs alone goes where the sequential model goes (`C45_alone`): the two were written apart.

* **C48** `Resume.lean` (ns `Res`): one signal, every access to `_is_blocked`, `_is_paused`, `_args_queue`, `_slots` a step;
  arbitrary code in threads and callbacks, which may depend on all that happened.  Invariant (`Kept`): what was emitted is
  settled or in front of every resume in progress.  `Exact` for exactly once.  `Free` when nobody pauses (`C48_unpaused`).

* **C49** `ChangeLemmas.lean` (core model, live list iteration): the log of one loop against the list of slots while it
  changes, by induction on the run: `Grows` (list grows as a supersequence) gives at least once, `Shrinks` at most once,
  `Settled` (the served part stays) exactly the final list.  `adds_run`, `sub_run`: which API calls do that.
  Immediate mode, `emit_fast`, every round of the queued mode (`RoundsBy`); latest-only mode: at most once.
* **C50** `Descriptor.lean` (classes, objects and groups with addresses, instance dicts, finalizers, the two caches of
  `SignalGroupDescriptor`), `DescriptorInv.lean`: invariants by cases over the events.  `Base` holds in every history: no
  entry of `_instance_map` outlives its object (`C50_map_live`), groups do not keep weakly referenceable objects alive
  (`C50_collectable`), the others are never collected (`C50_leak`).  `C50_partial` has three conditions; each is needed
  (refutations).
* **C51** `QueueConc.lean` (ns `QC`): `QueuedCallback.cb` and `emit_queued` in small steps, the `defaultdict` of queues with
  its gap between a missing key and the stored queue.  `Fifo`: everyone uses the queue in the table and what was put is what
  was taken followed by the content.  `Home`: threads that call `emit_queued()` for themselves only.
  `C51_drained`: when `emit_queued` returns, all that was queued before it was called has been taken (invariant: its last
  action was to find the queue empty).
* **C52** `ConcDepth.lean` (ns `Conc`, the model of C45): invariant that `_recursion_depth` of a signal is the number of
  emissions of it that one thread is in while no other thread is in any (by the lock), that `_max_recursion_depth` is at
  least that and 0 when that is, that the queue is empty when no thread is in an emission (`C52_depth`, `C52_rest`).
  `C52_partial`: a `RecursionError` means that some thread is in `limit` emissions of the signal, the emitting one if that
  holds the lock; `C52_below`: no error if no thread is; `C52_bound`: no thread is in more.  That it is always the emitting thread is refuted for every limit
  (`C52_elsewhere_refuted`).
* **C53** `FastConc.lean` (ns `FC`): `emit_fast` without a lock, `emit` (immediate, latest-only) with it, `+=`/`-=` of the
  counter as load and store, the counter an integer.  `C53_calls`, `C53_prefix`: invariant per thread over numbered
  emissions.  `C53_partial`: the counter is right if emissions of the signal in different threads do not overlap;
  `C53_locked`: they never do if the signal is only emitted with `emit` (invariant: the lock counts the emissions of its owner);
  `C53_stuck`: a signal at rest with the counter at the limit never calls a callback again.  Refuted in general, for every
  limit, by induction on the number of lost decrements (`C53_leak_refuted`); also `C53_negative_refuted`,
  `C53_latest_refuted`.  `FastConcCore.lean` translates code into programs of `Core`, and a thread that runs alone goes where the
  sequential model goes (`C53_alone`, as `C45_alone`); `FastConcLocks.lean`: locks are held by the emissions that took them, also
  beside `emit_fast` (`C53_locks`).
* **C54** `GroupClass.lean` (ns `GC`): classes with any MRO, `__set_name__`, `__init_subclass__`, `__init__`, `Signal.__get__`
  with its two caches, Python's attribute lookup.  `C54_signals` (what a class collects, any state), `C54_partial` and
  `C54_attr` (`group[name]`, `group.name`; invariant over programs whose signals have one name each), `C54_stays`,
  `C54_reserved` and `C54_creates` (all bases groups).  Refuted in general: `C54_subclass_refuted`, `C54_mixin_refuted`,
  `C54_unveiled_refuted`, `C54_two_bases_refuted`, `C54_named_refuted`, `C54_two_names_refuted`, `C54_override_refuted`.
  Not modelled: metaclasses, class attributes changed later, `super().__init_subclass__` of other bases.
* **C55** `ConcQueued.lean`, `ConcEmits.lean` (ns `Conc`, the model of C45 with two ghosts: the emissions in the order in
  which they got the lock, whether an exception has ended a loop).  `Act` classifies steps by what they do to one queued
  signal, `Good` says for each position in the loop what has been called.  `C55` (at rest), `C55_order` (at any time, a
  prefix), `C55_once` (at any time, with exceptions), for any code, if the connections of the signal stay the same.
  `C55_threads` does without the ghosts: threads that each emit a list of arguments.
* **C56** `Bind.lean` (ns `Bind`): fields and attributes are the nodes of an arbitrary graph of bindings; assignment with
  comparison, recursion depth and nested emissions; default reemission mode; other callbacks among the bindings, which
  return or raise; objects that die.  `Spread`: what holds between two
  states of the search; the number of attributes that differ from the value decreases (`assign_ok`).  `C56_partial` says
  exactly what is set and emitted and which callbacks are called, `C56_sync` that fields bound both ways agree after any assignments, `C56_bound`,
  `C56_listening` and `C56_follows` are about histories of connections and deaths.  Refuted for values not equal to themselves and for `maxargs=None`, for
  every limit (`C56_nan_refuted`, `C56_maxargs_refuted`), and for callbacks that raise (`C56_raises_refuted`).
* **C57** `GroupConc.lean` (ns `GrC`): one group, any members, other signals and threads; every access to `_current_emitter`,
  the group's list of listeners and a member's list is a step of its own.  `Locks`: who holds which lock, from the
  stacks; `Link`: relay and list of listeners agree unless a thread is between them.  `C57_link`, `C57_off`, `C57_off_all`
  for any code; `C57_partial` (called, unless `_slot_relay` finds no emitter) for callbacks that connect and disconnect
  nothing; `C57_single`, `C57_single_called`: with one emitting thread, others connecting and disconnecting, everything
  that the property says.  In general refuted: `C57_lost_refuted`, `C57_wrong_refuted`, `C57_silent_refuted`.  That
  `disconnect` of a group and emissions can wait for each other for ever is `C47_group_disconnect`.  Simplified: default
  reemission mode, no exceptions, no recursion limit, priorities 0, nothing blocked or paused.
* **C58** `ModelUpdate.lean` (ns `Upd`): values and models as trees; `update`/`reset`/`==` as recursive functions.  `C58_succeeds`,
  `C58_assignable`, `C58_fields`, `C58_events`, `C58_seen`, `C58_stops`, `C58_model`: what `update` does to every field, whom it tells what, what
  an exception leaves; `C58_copy`, `C58_quiet`: `a.update(b)` for models of the same structure; `C58_eq`, `C58_eq_fields`;
  `C58_reset_succeeds`, `C58_reset_fields`, `C58_reset_events`, `C58_reset_partial`.  All by mutual induction over the tree of
  values.  In general refuted: `C58_atomic_refuted`, `C58_together_refuted`, `C58_dict_refuted`, `C58_none_refuted`,
  `C58_symm_refuted`, `C58_defaults_refuted`, `C58_reset_fails_refuted`.  Simplified: no object at two places, no properties
  or dependent fields (those: C29-C31), no validation on assignment, listeners only listen.  Trusted: pydantic's
  `get_default()` does not call factories and gives `PydanticUndefined` for required fields; `model_dump()` is recursive.
* **C59** `ModelClass.lean` (ns `MCls`): class statements one after the other make `__property_setters__`, signals and
  `__field_dependents__`; instances are handed to the `EM` engine of C40.  Invariant `Made` over all sequences of statements.
  `C59_creation`, `C59_evented`, `C59_signals_partial`, `C59_setters`, `C59_allow`, `C59_setter_partial` (strong induction over the hierarchy),
  `C59_dependents`, `C59_signals_of_dependents_partial`, `C59_inherited_silent`.  In general refuted: `C59_inherited_refuted`, `C59_frozen_refuted`,
  `C59_setter_refuted`, `C59_guess_refuted`.  Simplified: pydantic's `model_fields`, its merged `model_config` and Python's MRO
  are inputs; names that a `SignalGroup` cannot have are C54's subject.
* **C60** `TypeCheck.lean` (ns `TC`): annotations, `issubclass`, `_parameter_types_match`, a signal with slots.  `C60_connect`, `C60_emit`
  (exact conditions), `C60_blocked`, `C60_calls` (invariant over all programs), `C60_typed_partial`, `C60_same`.  In general refuted:
  `C60_narrow_refuted`, `C60_union_refuted`, `C60_varargs_refuted`, `C60_empty_refuted`.  Simplified: callbacks return at once; the
  signature of a callback and what `get_type_hints` says are given; Python >= 3.10 (`issubclass` with unions as second argument).
* **C61** `Patch.lean` (ns `Pat`): classes with an MRO, descriptors, bodies of `__setattr__`; `_do_patch_setattr` on the first access of a
  group of each class; method resolution and `super()`.  `C61_truth`, `C61_connected`, `C61_reported`, `C61_once_partial`,
  `C61_transparent_partial`, `C61_others`: invariant of all programs (a patched class wraps the first method of its MRO).  In general
  refuted: `C61_twice_refuted`, `C61_mixin_refuted`, `C61_hidden_refuted`, `C61_second_refuted`.  Simplified: a `__setattr__` method passes
  the assignment on unchanged, does it itself or drops it; aliases and equality operators are C41 and C42.
* **C62** `GroupShare.lean` (ns `Sha`): `SignalGroup` classes with `_psygnal_aliases`, descriptors with and without `collect_fields`, owner
  classes whose group class is made at the first access, listeners, assignments.  `C62_truth`, `C62_effect`, `C62_statement` for every program;
  `C62_documented_partial`, `C62_signals_partial` when no group class is shared with a non-collecting descriptor that has aliases.  In
  general refuted: `C62_leak_refuted`, `C62_last_refuted`, `C62_inherit_refuted`, `C62_flag_refuted`.  Simplified: aliases are mappings
  (functions: C41), values are compared with `==` (C42), owner classes do not inherit from each other (C61).
* **C63** `QtTimers.lean` (ns `Qtt`): `_TIMERS`, timers that live in the thread that made them, event loops (also nested), `emit_queued`,
  direct and queued callbacks, exceptions; small steps of any number of threads.  `C63_thread`, `C63_order`, `C63_complete`,
  `C63_delivery`, `C63_self`: invariants of all schedules.  `C63_timers_partial`, `C63_calls_partial`, `C63_silent_partial`: when threads start and stop their
  own timers only; in general refuted: `C63_other_refuted`, `C63_taken_refuted`, `C63_stopped_refuted`.  Trusted: the rules of Qt stated
  at the head of the file.
* **C64** `Cfg.react` is what the listeners do to the container at an emission; `listening c p n` ties the knot: they perform the program
  `p log`, under listeners that do the same, `n` levels deep.  `C64_list_partial`, `C64_list_reverse_partial`, `C64_dict`: the invariant
  "replaying the log gives the contents" is kept by every operation if the listeners keep it, hence (induction on `n`) by all.  The other
  container theorems assume `Cfg.Passive` (`react` does nothing).  Refuted: `C64_late_refuted`, `C64_dict_late_refuted` (observers
  connected after such listeners), `C64_reverse_refuted` (`reverse()` in a listener during `move_multiple`), and, of other properties when
  listeners operate on the container, `C64_children_refuted`, `C64_clear_refuted`, `C64_dict_clear_refuted`, `C64_dict_value_refuted`.
* **C65** `Cfg.react` is what the listeners do to the set at an event; since `items_changed` is queued, what they emit waits (`St.pending`)
  until they have returned (`drain`).  `C65_observer_partial`, `C65_events_partial`: the invariant "the events delivered, followed by
  those that wait, lead exactly from the first elements to the present ones" is kept by single changes, by collected changes if
  nothing is left in `_args_queue`, and by `drain`.  Assumed: no operation failed because of a listener, and methods that collect
  changes are used only by listeners or only outside of them.  Both are needed: `C65_raise_refuted`, `C65_bulk_refuted`.
* **C66** `EL.expected` and `ED.expected` give the events of each operation as a function of the contents before it;
  `EL.C66_list_partial` and `ED.C66_dict_partial` say that after every sequence of operations the next one emits exactly these, or, if it
  raises, nothing; `EL.C66_move_multiple` says what a successful `move_multiple` emits.  Needed, with refutations: positions that exist for
  `del l[i]` and `move`, values (and keys, in `update`) that are accepted.  Listeners do not raise and do not operate on the container
  (C27, C64).
* **C67** `Msg.C67_raised_partial` (`EmitLoopError`, cause, heading), `Msg.C67_others_partial` (`emit_fast`, `emit_queued`), `Msg.C67_locations`,
  `Msg.C67_locals` on the construction of the message; `Msg.C67_nested_partial` and `Msg.C67_note_partial` on any failing emission of `Core`: the
  state in which its `except` clause runs gives the depth of nesting and, for queued signals, the value whose delivery failed, if none waits
  behind it.  Needed, with refutations: `str` of the exception, the truth value of the owner and the `repr` of arguments do not raise.
* **C68** `Flds.C68_fields_partial` (induction on the chain of bases: what is stored are exactly the latest declarations),
  `Flds.C68_struct_partial` (msgspec), `Flds.C68_none`, `Flds.C68_signals` (with `DC.build`), `Flds.C68_evented_partial`,
  `Flds.C68_isEvented`, `Flds.C68_namespace_partial`.  Hypotheses: annotations are dicts, no name is a `ClassVar` here and a field there; the
  fields are those declared by classes of the library that is asked first.  The rest is refuted: see disagreement 49.
* **C69** `DataclassNested.lean` (ns `DCN`).  Relations between the states before and after any program, by induction on the depth of nesting and the
  program: `Informed` (first listener), `Balanced` (same changes for all), `Ordered` (same order), `Calm` (no field is assigned while it is
  reported).  `DCN.C69_first_partial`, `DCN.C69_all_partial`, `DCN.C69_order_partial`, `DCN.C69_quiet`, `DCN.C69_refused`; `DCN.C69_derived`: if listeners assign only fields further up in
  some order, everything holds without further conditions.  Comparisons are assumed to tell whether values are the same (else: C42).
* **C70** `SelectionNested.lean` (ns `SelN`).  Relations between states before and after any operation, by induction on the nesting and on listeners' programs:
  `Step` (if anything was changed and nobody failed, `active` is right), `Cur` (active is current).  `SelN.C70_active_partial`, `SelN.C70_each_partial` (also for operations
  called by listeners), `SelN.C70_members`, `SelN.C70_current_partial` (without `active = …` and `clear()`), `SelN.C70_quiet` (refinement of the model of C33).
* **C71** `LazyThreads.lean` (ns `Lazy`).  Transition system over all schedules; invariant `Base` (who may still store something began before the end of every
  finished access), `Stable`, `Alone`.  `Lazy.C71_found`, `Lazy.C71_later_partial` (after the accesses that overlap the first have ended), `Lazy.C71_first_partial` (if the first
  has ended before the others begin).
* **C72** `Decompile.lean` (ns `Decomp`).  Renaming without clashes is a map over the files (`renameAll_eq`), the two extensions commute, and the map has an
  inverse.  `Decomp.C72_roundtrip_partial`, `Decomp.C72_back_partial` (no left-over files of the other kind), `Decomp.C72_none` (any left-overs), `Decomp.C72_names_partial`.
* **C73** `Temporary.lean` (ns `Temp`).  Refinement: the run of every program agrees with a reading (`lexical`) in which each setting has the value given by the
  innermost enclosing statement and nothing is stored.  `Temp.C73_enums`, `Temp.C73_attr`, `Temp.C73_reads` (all programs, pydantic 2), `Temp.C73_scoped_partial` (also class
  creations, when uses of `no_class_attributes` are not nested), `Temp.C73_inherited_partial` (pydantic 1, one use).
* **C74** `EventedCopy.lean` (ns `EvCopy`).  Refinement of a specification in which every object has its own values and callbacks (relation `Rel`: the groups of different objects
  are different).  `EvCopy.C74_unstored` (all programs when groups are not kept in `__dict__`), `EvCopy.C74_deep_partial`, `EvCopy.C74_unused_partial`, `EvCopy.C74_values` (all programs).
* **C75** `Direct.lean` (ns `Direct`).  Strictness by induction over the chain of classes (`Direct.C75_strict`); two runs of the same program, with and without the callback, related by
  "one slot inserted in each member" (`Rel`): `Direct.C75_undo`, `Direct.C75_calls`; `Direct.C75_all_or_none_partial` for uniform groups.
* **C76** `QtSlot.lean` (ns `QtSlot`).  Strings are lists of characters; that the text of a signal is found again in Qt's error message and taken apart into its
  parameters is proved by induction over names and lists of types (`QtSlot.C76_partial`); other callables by `C16_range_correct` (`QtSlot.C76_ordinary`).
* **C77** `ThrottleSlot.lean` (ns `ThS`).  Every throttler has a history of its own in the machine of C36-C38 (`Ext`, `made`), so their theorems apply (`C77_once_partial`,
  `C77_quiet_partial`, `C77_args_partial`, `C77_last_partial`); which calls are in it: `C77_calls_partial`.  References: the program's, those of threads of timers, strong ones of
  connections if throttlers cannot be weakly referenced; reference counting and a collector that may run at any time.  `Inv`: what slots refer to has not been
  collected (`C77_safe`), and what was collected has no timer left.
* **C78** `SelectionMove.lean`, on the model of C33/C34.  From the invariant `RL` the result of every command is computed (`selectNext_from`, `selectNext_none`, `selectAll_rl`,
  `deselect_rl`, `removeLoop_eq`, `lclearLoop_rl'`); `C78_cycle` by induction on the number of steps.
* **C79** `ChildEvents.lean`, on the list of `EventedList.lean`: emissions are operations of the program, each with the emitter that is current when it begins.  `C79_true_partial` is an invariant of the
  log over all programs (`step_logged`, `emission_logged`); `C79_told_partial`, `C79_once_partial` and `C79_silent_partial` compute the reports of an emission from the invariant of C35 (`Attached`).
  `C79_harmless`: no emission of a child fails because of the list.
* **C80** `Copies.lean`: containers refer to their contents and to their group by cells of a memory, so sharing is possible in the model; the invariant `Own` (no two containers share a cell, and only a
  list's own group deselects its items) is kept by every operation, and each operation either makes an object, or acts on one, or only calls callbacks (`step_cases`).  Events of children: `C80_child`, along the list of connections.
* **C81** `Separate.lean`, over `Core`: a relation between two states that one side cannot tell apart (`Side.Rel`; up to the ghost numbers of loops and connections), with the frame condition for the other
  side, is kept by every API call and every procedure (`body_rel`), hence by executions (`exec_rel`, induction on the call depth).  `C81_alone` removes the programs of the other side from a history.
* **C82** `ConcSep.lean`, over `Conc`: a simulation between the run under a schedule and the run under the same schedule without the other threads; states are compared up to the class attribute
  `_current_emitter` and the local variables that save it (`Alike`, `in_step`, `out_step`).  With `C45_alone` this gives the result of the sequential model for each thread (`C82_sequential`).
* **C83** `Ends.lean`, over `Core`: lexicographic induction on the number of calls queued for the running thread and on the room that the recursion limit leaves for nesting, then on the length of the list
  that a loop walks (`end_all`), then on the program (`end_top`).  The programs that never end are shown by a set of procedures none of which ends before another of the set does (`Never.never`).
  Python's own limit of the stack is not modelled; it ends only programs that nest, which none of the three loops does.
* **C84** `Modes.lean`, over `Core`: a simulation between the runs of the two sets of modes (`Modes.sim`, by induction on runs).  The two states differ only in `_emit_queue` of the signals that are being emitted
  (a queued loop leaves its arguments there, the others pop them); signals below the level of the running code are at rest in both.
* **C85** `Managers.lean`, over `Core`: steps `__init__`, `__enter__`, `__exit__` and programs; threads are switched between steps.  `C85_with_blocked` and `C85_with_paused` show that the `with` statements of `Core` are four such
  steps.  `C85_overlap_partial`, `C85_blocks_partial`, `C85_pauses_partial` from one invariant (`Mgr.Inv`: at most one open manager is the one that resets the flag, and it exists iff the flag differs from the beginning);
  `C85_delivers_partial` from another (`Mgr.Cnt`: delivered ++ held back = emitted).  `C85_left_blocked`, `C85_left_paused`: what leaving does, for managers used in any way.
* **C86** `Callers.lean`: signals share callback objects that know the signal that made them.  From the invariant `Inv` (slots sorted by the callbacks' own priorities): `C86_order`, `C86_connect`.  `C86_unique`, `C86_disconnect`:
  what the operations do to the slots, up to equality of callbacks.  `C86_calls`, `C86_stops`: an emission, up to the first slot of a dead object.  `C86_death`: exactly how many slots leave a signal when an object dies.
  `C86_gone_partial` (invariant `Home`): no dead slot ever, if callbacks are connected only to the signals that made them, with `unique`, while the object lives; the rest is refuted.
* **C87** `Swap.lean`, `SwapLemmas.lean`, `SwapSim.lean`: a simulation between two executions of the `Core` model that differ in the current emitter, the greatest depths of plain signals and the kind of emission events.
  `C87_same`: both directions for whole programs (`Turns`), up to `World.Looks`.  `C87_levels`: with C84, for signals of all modes that are not re-emitted.  The conditions are needed: `C87_emitter_refuted`, `C87_modes_refuted`,
  `C87_member_refuted`, `C87_hook_refuted`, `C87_nargs_refuted` (so C14's "delivers like emit" holds with these exceptions, and no others).
* **C88** `Watch.lean`, `WatchLemmas.lean`, `WatchSim.lean`: a simulation between the execution without and with the watcher: the other state is a function `ins` of the first one (the watcher last in the list of `s`, or dropped by
  `disconnect()`, later ghost numbers of connections shifted by one, another log).  `C88_unseen`: whole programs (`Turns`), up to `World.Beside`.  Loops make one more step where the list of the first run ends (in queued mode with the extra
  check of the queue length, which holds there).  The conditions are needed: `C88_priority_refuted`, `C88_len_refuted`, `C88_pause_refuted`, `C88_fast_refuted`.  Only this direction is shown: if the run without the watcher ends, so does
  the other (nothing is claimed for programs that never end).
* **C89** `Hook.lean`: file names as lists of characters, `PurePath.suffix` and `str(path)` as functions.  `C89_name` (round trip from the dotted name over the file name and back), `C89_installed_partial`, `C89_editable_partial`, `C89_none`; by
  induction over the record.  Refuted in general: `C89_single_refuted`, `C89_elsewhere_refuted`, `C89_sub_refuted`.  Trusted: `suffix` as in `pathlib` up to Python 3.13, `relative_to`, `iterdir`, `importlib.metadata.files`.
* **C90** `ConnConc.lean` (ns `CoC`): a transition system, one access to the list of slots per step; deaths are steps of the garbage collector, which takes no lock.  `C90_linear_partial`: linearizable (invariant: what the holder of the lock knows of
  the list), if no callback dies while a thread holds the lock; `C90_moment` (all schedules) says that the moment is between call and return; `C90_sorted_partial`, `C90_unique_partial` follow.  For all schedules: `C90_kept`, `C90_own`, `C90_progress`, `C90_released`
  (a potential bounds the steps under the lock).  Deaths during a call: `C90_wrong_refuted`, `C90_index_refuted`, `C90_priority_refuted`, `C90_skipped_refuted`, `C90_in_refuted`, `C90_unique_refuted`.  `C90_core`: what calls do alone (`Op.alone`) is what `Act.run` of `Core.lean` does, in every reachable state.  Simplified: callbacks do nothing with the signal (those: C49),
  `list.remove` is one step, default re-emission mode, no errors.
* **C91** `EqOps.lean` (ns `EqO`): classes with any MRO, descriptors, the dicts `__eq_operators__` and `_EQ_OPERATORS`; one comparison is `DC.checkEq` (C42).  Histories of accesses, assignments and comparisons; the answers for one field of one class form a chain
  (`Chain`, by C42's `Answer`) from the right operator: `C91_descriptor_partial`, `C91_attr_partial` (evented models: `C91_model`).  `C91_equal_partial`: what `==` of models compares.  Refuted in general: `C91_attr_refuted`, `C91_shared_refuted`,
  `C91_two_refuted`, `C91_property_refuted`.  Simplified: classes live for ever (else: C50), comparing values does not itself compare fields (nested models: C58).
* **C92** `AttrConc.lean` (ns `AtC`): threads run any programs of assignments and reads over one object; `Cfg.reread` is true for dataclasses (`_changes_emitted`) and false for models (`_setattr_no_dependants`), which also give the operator its arguments in the other order.
  Invariant over the log per control state (`Since`, `Over`): `C92_told`, `C92_silent`; replay of the log: `C92_value`, `C92_untouched`; `Blocks` of one thread: `C92_blocks`; `Closed`: `C92_final`.  `C92_mirror_partial` (`Known`): the last value told is the value if assignments of the attribute do not overlap.
  Refuted in general: `C92_mirror_refuted`, `C92_silent_refuted`, `C92_twice_refuted`.  Simplified: someone always listens, values are stored as they are (no validation), listeners do not assign (C69), emitting is one step (C45), the operator is fixed (C42, C91).
  Listeners of a model are told the new value only; the old value in the log is the one it was compared with.
* **C93** `DelayConc.lean` (ns `DlC`): every access to `_delay_check_semaphore`, `_changes_queue`, `_primary_changes` or a field is a step; threads make any assignments.  `Shape` says what a step does to log and fields; over it `C93_value`, `C93_untouched`, `C93_blocks`, `C93_told`;
  `C93_named` by an invariant over queue, set and what threads hold.  `C93_alone_partial` (`DelayConcAlone.lean`): an assignment that nothing overlaps tells exactly what changed and leaves nothing over; `C93_mirror_partial` (`DelayConcMirror.lean`): over whole runs without overlap, who keeps the last value told of a name has its value.  `C93_stuck`: with the counter above 0 a thread alone never tells anything.
  Refuted in general: `C93_silent_refuted`, `C93_key_refuted`, `C93_size_refuted`, `C93_lost_refuted`.  Simplified: all signals have listeners, which neither assign nor raise (one thread: C40); values are stored as they are; properties are not assigned and computed in one step; sets are iterated in
  insertion order; an iterator whose container has kept its size goes on at the next position.
* **C94** `DictConc.lean` (ns `DcC`): every step makes one event, accesses to `_dict` included; the dictionary is what the events say.  `moment` finds the state in which an event happened, `blocked_run` what its thread did before; from these `C94_value`, `C94_gone`,
  `C94_untouched`, `C94_look`, `C94_once`, `C94_added`, `C94_changed`, `C94_removed`, `C94_fail_set`, `C94_fail_del`, `C94_program` (what a program does and learns), `C94_blocks`, `C94_pop`, `C94_setdefault`.  If operations on a key do not overlap, a copy kept by events is right and the events fit together (`C94_mirror_partial`, `C94_story_partial`); in particular for a
  key that one thread changes (`C94_own`).  Refuted in general: `C94_mirror_refuted`, `C94_added_refuted`, `C94_fail_refuted`, `C94_stale_refuted`, `C94_changed_refuted`, `C94_removing_refuted`, `C94_pop_refuted`, `C94_setdefault_refuted`.  Simplified: no key order, no base types; an emission is one
  step; listeners do not touch the dictionary.
* **C95** `ListConc.lean` (ns `LsC`): as C94, for `insert`, integer `__setitem__`/`__delitem__`, `move`, look-ups.  `C95_list`, `C95_look`, `C95_size`; `C95_inserted`, `C95_changed`, `C95_removed`, `C95_moved`, `C95_fail`; `C95_program`, `C95_blocks`, `C95_append`, `C95_append_end`, `C95_pop`.
  Counting holds for any interleaving (`C95_length`, `C95_bag`, `C95_counted`): every operation is balanced, so every thread is (`tally_blocks`), so all are (`tally_threads`).  If operations do not overlap, a copy kept by events is right (`C95_mirror_partial`, `C95_story_partial`, `C95_own`).
  Refuted in general: `C95_mirror_refuted`, `C95_append_refuted`, `C95_changed_refuted`, `C95_fail_refuted`, `C95_last_refuted`, `C95_missing_refuted`, `C95_pop_refuted`.  Simplified: no slices, `reverse` or child events; an emission is one step; listeners do not touch the list.
* **C96** `SetConc.lean` (ns `StC`): as C94/C95, for `add`, `discard`, `update`, `difference_update`, `intersection_update`, `symmetric_difference_update`, `clear`, `in`; the bulk methods read `_is_paused`, pause, work, resume and tell the reduced record.  `C96_set`, `C96_nodup`, `C96_look`, `C96_signal`;
  `C96_program`, `C96_blocks`; `C96_change`, `C96_told`, `C96_origin`.  Counting for any interleaving: `C96_account` (every change is told or recorded once), `C96_single` and `C96_adds` (no bulk methods: every change is told once).  If methods do not overlap, counting what is told gives the set and nothing stays
  recorded or paused (`C96_mirror_partial`, `C96_quiet_partial`); if only bulk methods do not overlap each other the signal does not stay paused (`C96_unpaused_partial`).  Refuted in general: `C96_stuck_refuted`, `C96_lost_refuted`, `C96_left_refuted`, `C96_twice_refuted`, `C96_double_refuted`,
  `C96_order_refuted`, `C96_clear_refuted`.  Simplified: `tuple(self)`, the reduction and a delivery are one step each; at least one callback; callbacks do not touch the set and do not fail.
* **C97** `SetTurns.lean`, `DictTurns.lean`, `ListTurns.lean` (ns `StC`, `DcC`, `LsC`): refinement.  If at no moment two threads are in an operation, what there is, what is told (with the contents at that moment) and what is returned or raised is what the one-thread models `ES`, `ED`, `EL` give for the
  operations in the order in which they begin: `C97_set_partial`, `C97_dict_partial`, `C97_list_partial`.  Without such a hypothesis if only one thread calls operations and the others look: `C97_set_writer`, `C97_dict_writer`, `C97_list_writer`.  Missing, because refuted: overlapping operations are not
  as in any order (`C97_set_refuted`, `C97_dict_refuted`, `C97_list_refuted`).  Proof: of each place in an operation the rest of it is given as a function on contents and record; a step does part of it (`next_fin`), so the invariant `Turns` holds; the sequential models do the same (`run_same`).
  Also a check of the thread models against the sequential ones, which were written apart.  Simplified: as C94 to C96.
* **C98** `AttrTurns.lean`, `DelayTurns.lean` (ns `AtC`, `DlC`): refinement.  If at no moment two threads are in an assignment of the attribute, its value and what is told of it are what the one-thread models give for the assignments in the order in which they begin, whatever happens to other attributes:
  `C98_attr_partial` (dataclass, model `DC` of C39), `C98_model_partial` (evented model without dependents, model `EM` of C40); without such a hypothesis if one thread assigns it: `C98_attr_writer`, `C98_model_writer`.  With dependent properties, whatever the getters and operators, if no two assignments of
  any fields overlap: `C98_dependents_partial`, where also none raises.  Missing, because refuted: overlapping assignments are not as in any order (`C98_refuted`, `C98_dependents_refuted`).  Proof: as C97 for the first two; for the third, a state is calm or in the middle of an assignment that began in a calm one
  (`Turn`), the whole of which is known from C93 (`goes_set`), and `em_set` gives the same assignment in `EM`.  Also a check of the thread models against the sequential ones.  Simplified: as C92 and C93; silent listeners to all names.
* **C99** `Lock.lean` (ns `Lk`, and `inside` in `StC`, `DcC`, `LsC`, `AtC`, `DlC`): the thread models with a lock: a thread that would begin an operation while another holds the lock waits; the lock is let go with the end of the operation.  Refinement, without the hypothesis of C97 and C98 that operations do not
  overlap: `C99_set`, `C99_dict`, `C99_list`, `C99_attr`, `C99_model`, `C99_dependents` (which also says that nothing is left over and nothing raised).  Progress: `C99_set_free`, `C99_dict_free`, `C99_list_free`, `C99_attr_free`, `C99_dependents_free`.  Proof: a run with lock is a run without in which operations do not
  overlap (`Lk.locked`), and each place in an operation gets out of it in finitely many steps (`ends_all`, `gets_all`, `Turn`).  Simplified: taking the lock is one step with the beginning of the operation, and letting it go one with its end; silent listeners (one that operates on the same object would wait for itself).
  Copies kept by following what is told: `C99_set_mirror`, `C99_dict_mirror`, `C99_list_mirror`, `C99_attr_mirror`, `C99_dependents_mirror` (`LockMirror.lean`, with the invariants of C92-C96); that each event fits the copy at its time, also while the lock is held: `C99_dict_story`, `C99_list_story`.  Without the lock these are refuted in C92-C96.
* **C100** `Block.lean` (ns `Blk`, and `sys`, `alone` in `DcC`, `LsC`): threads make blocks of operations of the models of C94 and C95; a thread that would begin a block while another holds the lock waits; in a block it goes on step by step (`next` of those models) and lets the lock go with the last step.  `alone` says what a
  block does when nobody else does anything, from the Python semantics of the operations and not from the steps.  Refinement: `C100_dict`, `C100_list` (lock free), `C100_dict_held`, `C100_list_held` (lock held).  Progress: `C100_dict_free`, `C100_list_free`.  Consequences: `C100_pop`, `C100_whole` (no `KeyError`, no value replaced, at any
  time), `C100_list_pop`, `C100_append`.  That the lock of C99 is not enough: `C100_pop_refuted`, `C100_setdefault_refuted`, `C100_list_pop_refuted`, `C100_append_refuted`.  Proof: invariant that only the holder is in a block (`Blk.good_step`), determinism of the way to the end (`Path.one`), and structural induction on programs
  (`path_alone`, `fin_all`).  Simplified: as in C94, C95; look-ups are made in blocks too.
  Sets: `SetBlock.lean` (ns `StC`, the thread model of C96): `alone` says what a block sees - results of `in`, what callbacks are told - with methods doing what the model of C31 says; threads decide their blocks from that.  `C100_set`, `C100_set_held`, `C100_set_free`; "discard if there" and "add if missing" in a block:
  `C100_set_take`, `C100_set_claim`; the lock of C99 is not enough: `C100_set_refuted`.  Proof: what is left of a method (`Ctl.fin` of C97) is done by its steps (`path_seen`), and it ends (`fins_all`).
  What every block keeps is kept: `C100_dict_invariant`, `C100_list_invariant`, `C100_set_invariant`; with that `C100_transfer` (the sum of two values), `C100_extend` (items of one call stay together), `C100_set_switch` (one of two items is there).  Not with the lock of C99: `C100_transfer_refuted`, `C100_extend_refuted`,
  `C100_set_switch_refuted`.
  Copies kept by listeners: `C100_dict_mirror`, `C100_list_mirror` (`BlockMirror.lean`); without a lock they differ: `C100_dict_mirror_refuted`, `C100_list_mirror_refuted`.
  That each event fits the copy at its time, also while the lock is held: `C100_dict_story`, `C100_list_story` (`BlockStory.lean`).
  Sets: `C100_set_mirror` (`SetMirror.lean`, by the exact events of C31), if no `symmetric_difference_update` gets an item twice (`C100_set_twice_refuted`); without a lock `C100_set_mirror_refuted`.
* **C101** `Update.lean` (ns `AtC`): the thread model of C92 as a machine of `Block.lean` (`next`; `step_next` proves that it makes the same steps), with blocks under a lock as in C100.  Refinement: `C101_attr` (lock free), `C101_attr_held` (lock held).  Progress: `C101_attr_free`.  Consequences: `C101_update` (for every function, operator and kind
  of object), `C101_count` (`obj.x += 1`).  That the lock of C99 is not enough: `C101_count_refuted`.
  For all programs: `C101_mirror` (what listeners are told leads from the first value to the present one), `C101_invariant` (what every block keeps), with that `C101_transfer`, not true with the lock of C99: `C101_transfer_refuted`.  Simplified: as in C92.

## Disagreements between code and expectation found while modelling

Each has a proved witness (theorem named in brackets) unless marked "read only".

1. latest-only: a value emitted after a deeper nested emission has finished reaches nobody (`C11_refuted`).
2. `emit_fast` on a latest-only signal leaves a stale `_max_recursion_depth`, which silences later emissions
   (`C07_refuted`).
3. `resume()` keeps the whole record when a callback raises, so a second `resume()` delivers again
   (`C13_error_refuted`); `resume()` delivers also on a blocked signal (`C12_resume_bypasses_block`).
4. Nested `group.blocked()`, excluded members that were blocked, and a group blocked before: the context does not
   restore (`C20_nested_refuted`, `C20_excluded_refuted`, `C20_blocked_before_refuted`).
5. Pausing a group does not pause emissions of its members (`C21_refuted`).
6. `group.disconnect(f, missing_ok=False)` raises although `f` was connected to the group (`C22_refuted`).
7. `member.disconnect()` cuts the member off its group (`C19_member_disconnect_refuted`); `emit_fast` on a member
   gives the group's listeners the previous emission's arguments or none (`C19_fast_refuted`,
   `C19_fast_attribution_refuted`); the last value of a latest-only member may never reach the group
   (`C19_latest_member_refuted`, cf. C11).
8. `functools.partial` with too many bound arguments is accepted on connect (`C16_partial_refuted`).
9. `del l[i]` with `-2n ≤ i < -n` removes an element instead of raising (`EL.C27_del_refuted`).
10. `EventedList` hands out a new wrapper for elements that are built-in lists (`EL.C27_nested_refuted`); integer-like
    keys cannot be deleted, `pop` takes slices (`EL.C27_key_refuted`).
11. `EventedList.move` with a source counted from the end moves to the wrong place or not at all
    (`EL.C29_move_refuted`); `move_multiple` misplaces sources on both sides of the destination or unordered, and can
    raise `IndexError` half-way (`EL.C29_move_multiple_refuted`).
12. Item assignment on `EventedList(child_events=True)` neither disconnects the old child nor connects the new one
    (`EL.C35_setitem_refuted`); a listener of `inserted` that raises leaves the child unconnected
    (`EL.C35_raise_refuted`).
13. A slot that disconnects itself during an emission makes the loop skip the next slot (`C49_skip_refuted`); one that
    connects another with a higher priority is called again (`C49_twice_refuted`); one that connects itself again never
    ends (`C49_endless`).
14. `EventedDict.popitem` removes the first item, a dict the last (`ED.C30_popitem_refuted`); `reversed` is not supported
    (`ED.C30_reversed_refuted`); `adding`/`changing` are emitted before the type check.
15. Sets: `symmetric_difference_update` with a repeated element (`ES.C31_repeated_refuted`); `s.difference_update(s)`
    raises half-way (`ES.C31_self_refuted`); `s.intersection()` raises (`ES.C31_no_argument_refuted`); `|=` and friends emit
    once per element (`ES.C31_in_place_refuted`); a raising listener makes the next bulk operation report old changes again
    (`ES.C31_stale_refuted`).
16. `Selection`: `active = x` with an `x` outside the parent, on an empty selection, raises but leaves `active` set
    (`Sel.C33_refuted`); a change of `active` reports `None` in between and the new item twice
    (`Sel.C33_spurious_events`); a raising listener leaves `active` out of date (`Sel.C33_raise_refuted`).
    `SelectableEventedList`: item and slice assignment leave the replaced item selected (`Sel.C34_refuted`,
    `Sel.C34_slice_refuted`); `_current` may be a removed item, which makes `select_next` raise
    (`Sel.C34_current_stale`).
17. Stored callbacks: a built-in method is looked up again by name, so `super().append` calls the override and a dead
    object's `__eq__` calls that of `None` (`WC.C23_super_refuted`, `WC.C23_dead_builtin_refuted`); values bound beyond the
    key or the attribute name are dropped (`WC.C23_setitem_refuted`, `WC.C23_setattr_refuted`), and so are keywords on a
    curried function (`WC.C23_curry_refuted`) and all bound arguments in `__call__` of a built-in
    (`WC.C23_call_builtin_refuted`).
18. Bound arguments do not enter the identity of a callback: `partial(f, 1)` and `partial(f, 2)` are one connection for
    `unique`, `in` and `disconnect` (`WC.C24_refuted`, `WC.C24_builtin_item_refuted`); methods of one object with the same
    `__name__` and item keys with the same `repr` are confused (`WC.C24_method_names_refuted`, `WC.C24_repr_refuted`).
19. Pickling loses priorities and descriptions (`Pickle.C25_priority_refuted`, `Pickle.C25_description_refuted`), drops
    slots with a thread (`Pickle.C25_queued_slot_refuted`), and a copy made during a queued emission is dead
    (`Pickle.C25_mid_emission_refuted`).
20. `Signal(name="other")` gives a new signal instance on each access (`Inst.C26_name_refuted`); `copy.copy(obj)` shares the
    signal instance (`Inst.C26_copy_refuted`).
21. Throttler: if the function raises, no timer is started (`Thr.C36_raise_refuted`); a function that calls its own throttled
    version is invoked again at once (`Thr.C36_reentrant_refuted`); a call made before the initial 0-second timer thread
    has ended is never executed (`Thr.C37_startup_refuted`), nor is one made right after `cancel()`
    (`Thr.C37_cancel_refuted`).
22. Throttler and debouncer are not thread safe against their own timer: two callers both invoke
    (`Thr.C36_threads_refuted`), calls are lost (`Thr.C37_race_refuted`, `Thr.C37_debouncer_race_refuted`), positional and
    keyword arguments of different calls are mixed (`Thr.C37_torn_refuted`).
23. One comparison that raises makes identity the operator of the field for the class for good, so `==`-equal values are
    reported as changed later (`DC.C42_sticky_refuted`); an exception in `hasattr(x, "__array__")` escapes
    (`DC.C42_hasattr_refuted`).
24. A subclass inherits its base's patched `__setattr__` with the base's `with_aliases=False`; its aliased fields report
    nothing (`DC.C41_inherited_refuted`).  A non-field attribute called like a signal reports to it
    (`DC.C41_other_attribute`).  The internal sentinel `_NULL` reaches listeners as old value (`DC.C39_new`).
25. EventedModel: a subclass does not get signals for inherited property setters, but inherits `field_dependencies`; assigning
    a field then raises `KeyError` (`EM.C40_subclass_refuted`).  A getter that raises leaves the bookkeeping behind and later
    assignments to other fields raise `KeyError` (`EM.C40_getter_refuted`).  A raising listener makes the remaining changes
    unreported (`EM.C40_abandoned_refuted`).  Fields called like an attribute of `SignalGroup` cannot be reported
    (`EM.C40_conflict_refuted`).  Without dependents, the report carries and compares the value before validation
    (`EM.C40_raw_refuted`).
26. EventedObjectProxy: a new item cannot be set through the proxy (`Proxy.C43_new_item_refuted`), nor an attribute whose
    getter raises (`Proxy.C43_getter_refuted`); `events` of the wrapped object is hidden (`Proxy.C43_own_name_refuted`);
    `in_place` and `called` are emitted before the operation, so a listener can prevent it
    (`Proxy.C43_in_place_refuted`).
27. `monitor_events`: an attribute that raises while the signals are looked for leaves the reports connected so far
    (`Mon.C44_entry_refuted`).  A monitored group whose member is cleared by the body does not reconnect to it
    (`Mon.C44_group_refuted`); a member may call the relay at another position (`Mon.C44_position_refuted`).  Global
    monitors left in the order entered leave a hook behind (`Mon.C44_interleaved_refuted`).
28. `Signal._current_emitter` is shared by all threads: with emissions of different signals at the same time callbacks see
    the wrong emitter (`Conc.C46_refuted`) and it may stay set for good (`Conc.C46_leak_refuted`); groups use it to say
    which member was emitted.
29. Disconnecting the last callback of a group takes the lock of the relay, then those of the members; emitting a member
    takes them the other way: deadlock (`Conc.C47_group_disconnect`).
30. `resume()`: an emission that found the signal paused and is recorded between the last iteration and `clear()` is lost
    (`Res.C48_refuted`); with a reducer, so is everything recorded by callbacks (`Res.C48_reducer_refuted`); a callback that
    resumes makes the outer loop clear what is recorded later (`Res.C48_nested_refuted`).
31. `SignalGroupDescriptor._instance_map` is one dict for all descriptors: a second descriptor on the same object returns the
    group of the first (`C50_two_descriptors_refuted`).  `copy.copy(obj)` shares the cached group
    (`C50_copy_refuted`).  Group types are cached by `id(class)` and never removed: if a class with `__eq_operators__` is
    collected, a class that gets its address gets its group type and no patched `__setattr__`
    (`C50_class_address_refuted`); other classes are kept for good by `_EQ_OPERATORS`.  Objects that cannot be weakly
    referenced are never collected once read (`C50_leak`).
32. `QueuedCallback._GLOBAL_QUEUE` is a `defaultdict(Queue)`: when two threads are the first to queue something for a thread at
    the same time, one of the two is lost (`QC.C51_first_use_refuted`).  `emit_queued(thread=T)` runs the callbacks of `T` in
    the calling thread (`QC.C51_elsewhere_refuted`); two threads that empty one queue may wait for good
    (`QC.C51_wait_refuted`).
33. `_run_emit_loop` compares `_recursion_depth` with the limit before it acquires the lock: while one thread is in 300 nested
    emissions, an emission of the same signal in another thread, which is in none, raises `RecursionError` instead of waiting
    (`Conc.C52_elsewhere_refuted`).
34. `emit_fast` changes `_recursion_depth` without a lock.  Two threads that emit at the same time may lose a decrement; after
    300 of them the signal is dead, every emission raises `RecursionError` (`FC.C53_leak_refuted`).  The counter may become
    negative (`FC.C53_negative_refuted`).  An `emit` of a latest-only signal in another thread may return without calling
    any callback (`FC.C53_latest_refuted`).  The documentation of `emit_fast` only says that it uses no locks.
35. `SignalGroup` classes.  A group with a signal called `psygnal_…` cannot be subclassed: `AttributeError`
    (`GC.C54_subclass_refuted`).  A reserved name in a mixin makes the class definition fail (`GC.C54_mixin_refuted`), or
    `group.all` a signal (`GC.C54_unveiled_refuted`).  Of two groups as bases, only the first passes on its signals with
    reserved names (`GC.C54_two_bases_refuted`).  `x = Signal(name="y")` and `a = b = Signal()` give different objects for
    `group.x` and `group["x"]` (`GC.C54_named_refuted`, `GC.C54_two_names_refuted`).  A signal cannot be removed or
    replaced by a subclass (`GC.C54_override_refuted`).
36. Two fields bound both ways with `connect_setattr`: assigning `float("nan")`, or binding with `maxargs=None`, raises
    `RecursionError` (`Bind.C56_nan_refuted`, `Bind.C56_maxargs_refuted`).  A callback that raises keeps the attributes bound
    after it from being set, so the field and they differ (`Bind.C56_raises_refuted`).
37. Groups and threads.  `Signal._current_emitter` is shared by all threads and `_slot_relay` uses it, so a listener of a group
    can miss an emission because another thread emits an unrelated signal (`GrC.C57_lost_refuted`), or be told the wrong
    signal (`GrC.C57_wrong_refuted`).  Dead listeners are removed without the lock, so a listener connected meanwhile can
    stay silent for ever (`GrC.C57_silent_refuted`).
38. `EventedModel.update` is not all or nothing (`C58_atomic_refuted`), listeners are told while it is half done
    (`C58_together_refuted`); `a.update(b)` puts dicts where `b` has models if `recurse=False` or the field was `None`
    (`C58_dict_refuted`) and raises `TypeError` if a field of `b` is `None` where `a` has a model (`C58_none_refuted`).  `==`
    of a base and a derived class is not symmetric (`C58_symm_refuted`).  `reset()` ignores `default_factory` (the field
    becomes `None`), sets required fields to `PydanticUndefined`, resets a nested model to the defaults of its class instead
    of the declared default (`C58_defaults_refuted`), and fails if such a field is `None` (`C58_reset_fails_refuted`).
39. Classes of evented models.  Only settable properties of the class body itself get a signal: in a derived class an inherited one
    has none, and if it depends on a field, every assignment to that field raises `KeyError` (`C59_inherited_refuted`).  The same
    happens if a frozen field is declared to depend on another (`C59_frozen_refuted`).  The setter that is called is not always
    that of the property Python finds: diamonds, read-only overrides, bases that do not allow setters, plain mixins
    (`C59_setter_refuted`).  Guessed dependencies miss properties used by properties (`C59_guess_refuted`).
40. `check_types=True` on connect compares the wrong way round: `f(x: bool)` is accepted by `Signal(int)` and called with any `int`,
    `f(x: object)` is refused (`C60_narrow_refuted`); of a union one member that fits suffices, and `int | str` raises `TypeError`
    (`C60_union_refuted`); `*args` is checked for one argument only and keyword-only parameters are compared with types of
    positional arguments (`C60_varargs_refuted`); a signal with a signature without annotations refuses every annotated callback
    and every checked emission (`C60_empty_refuted`).
41. `_do_patch_setattr` patches each class when a group of one of its instances is first accessed, and wraps what the MRO finds then.
    If base and derived class are both patched and the method of the derived class calls `super().__setattr__`, each change is
    reported twice (`C61_twice_refuted`, with a mixin `C61_mixin_refuted`).  A patched base class hides the `__setattr__` of a later
    base (`C61_hidden_refuted`).  A group with a second name never reports, if the first was accessed before
    (`C61_second_refuted`).
42. `collect_fields=False` is documented to use a deepcopy of `signal_group_class`; `copy.deepcopy` of a class is the class itself, and
    `_psygnal_aliases.update` changes it.  Aliases of one descriptor apply to others with that class (`C62_leak_refuted`), the last to
    be used wins (`C62_last_refuted`), classes made later inherit them (`C62_inherit_refuted`), and whether they count for a class
    depends on whether there were any when its group was made (`C62_flag_refuted`).
43. `start_emitting_from_queue(thread=t)`, called in another thread, makes the `QTimer` in the calling thread, where `emit_queued()`
    empties the queue of the calling thread: nothing is ever delivered for `t` (`C63_other_refuted`, in general `C63_self`), a later call
    in `t` itself gets the foreign timer (`C63_taken_refuted`), and `stop_emitting_from_queue()` in the calling thread does not stop it
    (`C63_stopped_refuted`).
44. Listeners that operate on the container: later observers get the events in the wrong order and end with wrong contents
    (`C64_late_refuted`, `C64_dict_late_refuted`); a `reverse()` during `move_multiple` may never be reported (`C64_reverse_refuted`);
    a child that a listener of `inserted` removes stays connected (`C64_children_refuted`); `clear()` silently stops half-way when a
    listener of `removing` removes items (`C64_clear_refuted`, `C64_dict_clear_refuted`); `removed` of a dict may report a value that
    is not the one removed (`C64_dict_value_refuted`).
45. Listeners that operate on an `EventedSet`: `resume` clears `_args_queue` only after the listeners have returned, so a bulk method
    called by a listener of an event of a bulk method reports the changes of the outer call again (`C65_bulk_refuted`: the observer ends
    with an element the set does not have).  When a listener raises, changes made by listeners before are never reported
    (`C65_raise_refuted`).
46. Announcements of changes that do not happen: `del l[i]` and `move` announce the removal or move before they find that the position
    does not exist (`C66_del_refuted`, `C66_move_refuted`); a dict announces an addition or change before the type of the value is checked
    (`C66_reject_refuted`).  `move_multiple` returns the number of planned moves, not, as documented, that of the moves completed.
47. The note in the message of an `EmitLoopError` of a queued signal names the last element of the queue, not the one that was being delivered:
    if a callback emits 2 and 3 when it gets 1 and the next callback then fails with 1, the message says that the error occurred at queue depth 2
    with arguments 3 (`C67_note_refuted`).
48. Making an `EmitLoopError` takes `str` of the exception, `bool` of the owner of the signal and, for queued signals, the `repr` of arguments
    outside `suppress(Exception)`: if one of them raises, the emission raises that instead (`C67_str_refuted`, `C67_owner_refuted`, e.g. an owner
    that behaves like an array, `C67_args_refuted`).
49. Fields of evented classes.  An attrs class derived from a dataclass has no signals for its own fields (`C68_mixed_refuted`); inherited
    fields of msgspec structs have type `None`, so arrays are compared with `==` (`C68_struct_refuted`); `evented` is documented to raise for
    frozen classes but accepts them, `is_frozen` is never called (`C68_frozen_refuted`); reserved names of inherited fields are not noticed by
    the decorator (`C68_reserved_refuted`); `get_evented_namespace` may name an attribute that a derived class uses for something else
    (`C68_namespace_refuted`).
50. Listeners that assign the field they listen to (to correct a value, say): listeners connected later are told the corrected value before
    the wrong one and end with the wrong one (`C69_late_refuted`); at the limit of nesting, `RecursionError` is raised after the value was stored and nobody
    is told of it (`C69_limit_refuted`); after an exception in a listener the later ones are not told (`C69_raise_refuted`).
51. Listeners that operate on the selection: `active = 2` with a listener of `items_changed` that selects 3 ends with 3 active, 2 current, and 2 the last event of
    `active` (`C70_current_refuted`); a listener that calls `clear()` and selects the removed item again leaves an active item that is not current
    (`C70_clear_refuted`); `active = 2` need not leave 2 the only selected item (`C70_only_refuted`); a listener that selects a single item after `clear()` is told the
    removal twice, because `resume` empties its queue only after the emission (`C70_twice_refuted`).
52. First accesses from several threads: two threads can get different signals, and callbacks connected to one of them are never called
    (`C71_signal_refuted`, `C71_proxy_refuted`); two threads can get the same group while the object keeps another one (`C71_group_refuted`).
53. `decompile`/`recompile` overwrite: when a module was compiled anew while a backup exists, `recompile()` replaces the new file by the old one
    (`C72_overwritten_refuted`); a file named `.so` comes back as `.so.so` (`C72_bare_refuted`).
54. Temporary settings: the end of a nested `no_class_attributes` undoes the outer one (`C73_nested_refuted`) and a patch made by somebody else is lost
    (`C73_other_refuted`); leaving `enums_as_values` raises `KeyError` when the entry was removed inside (`C73_removed_refuted`); with pydantic 1 an inherited entry
    is copied and stays (`C73_inherited_refuted`), even with the temporary value of a base (`C73_leak_refuted`).
55. Copies of evented objects: `copy.copy` of an object whose events were used shares them with the original (`C74_shallow_refuted`); after `copy.deepcopy` the events of the
    copy are bound to the original, `copy.events.all.instance is original` (`C74_bound_refuted`).
56. `connect_direct` that raises leaves the callback connected to the members before the one that refused it (`Direct.C75_half_refuted`), also in strict groups, because signatures are
    compared by the text of annotations only (`Direct.C75_lookalike_refuted`) and the signals may choose different checks (`Direct.C75_defaults_refuted`); `strict` is not inherited
    (`Direct.C75_subclass_refuted`); `group.disconnect` after `connect_direct` removes an older connection of the same callback (`Direct.C75_connected_refuted`).
57. Names of Qt types with a comma or a closing bracket are miscounted (`QtSlot.C76_comma_refuted`, `QtSlot.C76_bracket_refuted`); the `emit` method of a psygnal signal compiled
    with mypyc looks like one of PySide and is called with 255 values when it is connected (`QtSlot.C76_probe_refuted`; so is a PySide signal with 255 parameters,
    `QtSlot.C76_255_refuted`); `_check_nargs` reports every callable as a Qt slot, so `on_ref_error="raise"` has no effect with `check_nargs=True` (`QtSlot.C76_ref_refuted`).
58. `signal.connect(throttled(f))`, as in the docstrings of `throttled` and `debounced` (`_throttler.py:197,253`), connects nothing (unless compiled): the throttler is a callable object, so it is
    weakly referenced (`_weak_callback.py:188-191`) and collected at once; `f` is never called (`ThS.C77_forgotten_refuted`).  Later it is collected, with its connection, when its timer
    has ended (`ThS.C77_collected_refuted`).
59. `select_next` on a `SelectableEventedList` in which an item occurs twice goes on from the first of the two (`_selectable_evented_list.py:89`), so that it can go back and forth for ever and never
    reach the rest of the list (`Sel.C78_twice_refuted`).  With nothing selected `select_next` selects the *last* item, and `remove_selected` selects the first one (`Sel.C78_none_selected`).
60. What `child_event` reports (C79) depends on the current emitter.  `emit_fast` does not set it (`_signal.py:1208-1260`), so nothing is reported (`EL.C79_fast_refuted`), and inside of another emission the
    report names the wrong child and signal (`EL.C79_nested_fast_refuted`).  The groups of containers are made without an instance (`_evented_list.py:127`, `_evented_dict.py:173`, `_evented_set.py:325`), so
    events of nested containers are not reported (`EL.C79_container_refuted`).  The index is that of the first item *equal* to the child (`EL.C79_equal_refuted`), and a child that is in the list twice is
    reported twice with the same index (`EL.C79_twice_refuted`).
61. Copies of containers (C80) lose options: `EventedList.__newlike__` passes neither `hashable` nor `child_events` on (`_evented_list.py:213-215`; `CC.C80_hashable_refuted`,
    `CC.C80_child_events_refuted`), a copied `Selection` has no parent (`CC.C80_parent_refuted`).  `deepcopy` copies the options but makes a fresh group (`_group.py:427-432`): the children of the copy are
    not connected (`CC.C80_deep_child_events_refuted`) and removed items of a copied `SelectableEventedList` stay selected (`CC.C80_deep_selected_refuted`).  Copying turns built-in lists among the
    items into `EventedList`s (`CC.C80_nested_refuted`), and hashable lists that are equal have different hashes (`CC.C80_equal_hash_refuted`).
62. Unrelated signals (C81) do share three things: `emit_queued` runs (and raises from) everybody's callbacks that wait for the thread (`C81_queue_refuted`), the debug hook is global
    (`C81_hook_refuted`), and so is the current emitter, which `emit_fast` does not set: called inside an emission of an unrelated signal, the group of the `emit_fast`-ed member reports that unrelated
    signal (`C81_emitter_refuted`).
63. The current emitter is all that threads with different signals share (C82): a callback that asks for it can take another path, here raise, because of another thread (`Conc.C82_emitter_refuted`).
64. Emissions need not end (C83): `for caller in self._slots` (`_signal.py:1307`) and `for args in self._args_queue` (`:1427`) walk live lists, and `emit_queued` (`_queue.py:89`) drains a queue that it can
    extend (`C83_connect_refuted`, `C83_pause_refuted`, `C83_drain_refuted`).
65. Managers read the flag when they are created, not when they are entered (`_signal.py:1518,1534`), so one that is created before `block()` and entered after it unblocks (`C85_stale_refuted`), one that is entered
    twice unblocks at the first exit (`C85_reentered_refuted`), the first of two overlapping managers unblocks while the second is open (`C85_second_refuted`), and two threads that use `with sig.blocked():` (or
    `paused()`) once each can leave the signal blocked (paused) for ever (`C85_stuck_blocked_refuted`, `C85_stuck_paused_refuted`).
66. `weak_callback` returns a `WeakCallback` as it is (`_weak_callback.py:118-119`), so `max_args=`, `priority=` and the `finalize` of the signal are dropped when the callback that `connect_setattr` returned is given to
    `connect` (`C86_settings_refuted`).  Its `finalize` takes one slot out of the signal that made it.  Connected to another signal, or a second time, it stays when the object dies, and from then on every emission of that
    signal raises `EmitLoopError` and does not reach the slots behind (`C86_dead_refuted`, `C86_twice_refuted`); the same if it is connected after the death (`C86_late_refuted`).  `disconnect` of a callback can take out
    another one for the same attribute (`C86_which_refuted`).
67. The PyInstaller hook cuts the path of a compiled module at the first dot: a file in a directory with a dot in its name, or in a record entry with leading `..`, gives a name that is not that of a module (`C89_elsewhere_refuted`); with exactly one
    compiled module the record is ignored (`C89_single_refuted`); in editable installations compiled modules of subpackages are not found (`C89_sub_refuted`).
68. `_try_discard` (`_signal.py:804-816`), which takes a dead callback off, does not ask for the lock.  If an object dies (in another thread, or in a collection of cycles in the same one) while `disconnect(f)` is between finding and removing, another
    callback is disconnected instead of `f` (`C90_wrong_refuted`) or `IndexError` is raised (`C90_index_refuted`); `connect` with a priority can put the callback in the wrong place (`C90_priority_refuted`); an emission can leave out a callback that is
    connected all the time (`C90_skipped_refuted`), `f in sig` can be false for one (`C90_in_refuted`) and `connect(f, unique=True)` can connect it twice (`C90_unique_refuted`).
69. The documentation of `evented` says that `__eq_operators__` of a class will be used (`_evented_decorator.py:76-77`); but `_build_dataclass_signal_group` (`_group_descriptor.py:199-204`) replaces what it has for the fields by the operators for their types
    (`C91_attr_refuted`).  A class that inherits the attribute shares the dict, so that making its group changes how objects of the base class are compared (`C91_shared_refuted`); a second descriptor replaces the operators of the first (`C91_two_refuted`).
    Comparing a property of an evented model adds it to `__eq_operators__` (`eq_map.setdefault`, `:95`), and so `==` of models of this class compares it from then on (`C91_property_refuted`).
70. Assignments take no lock.  When two overlap, the last event may report a value that is not the final one (`C92_mirror_refuted`, dataclasses and models), a change may be reported by nobody because the thread compares with what it read before another thread changed it
    (`C92_silent_refuted`), and a dataclass may report one value twice and another never since it reads the attribute again after storing (`_group_descriptor.py:316`, `C92_twice_refuted`).
71. Evented models with dependent properties keep the state of an assignment on the object, without a lock.  Two overlapping assignments may both read the counter before either writes it (`_evented_model.py:192,195`): it never gets back to 0, and a thread that assigns alone from then on tells nobody
    (`C93_silent_refuted`, `C93_stuck`).  They may also raise `KeyError` (`:575`, `C93_key_refuted`) or `RuntimeError` (`:568`, `C93_size_refuted`) out of an assignment that has stored its value, or one clears the queue the other has filled, so that a change is told to nobody (`:586`, `C93_lost_refuted`).
72. `EventedDict` looks, emits and stores without a lock.  With two threads on one key, `d[k] = v` may raise `KeyError` (`_evented_dict.py:177,182`, `C94_fail_refuted`); `added` may come twice (`C94_added_refuted`), `changed` for a key that is new (`C94_changed_refuted`); `removed` may name a
    value replaced before (`:189,191`, `C94_stale_refuted`), and a copy kept by events differs for good (`C94_mirror_refuted`).  `pop` may return another value than the one it removes, which is then lost (`C94_pop_refuted`), and two `setdefault` may return different values (`C94_setdefault_refuted`);
    for a plain `dict` both are one call into C.
73. `EventedList` computes indices, emits and changes `_data` without a lock.  With two threads, `append` may put the item before one that is there already (`C95_append_refuted`), `del l[-1]` may remove an item that is not the last (`C95_last_refuted`), an item is not in the list while it is moved
    (`_evented_list.py:284-287`, `C95_missing_refuted`), `pop` may return another item than the one it removes (`C95_pop_refuted`) - for a `list` these are atomic.  `changed` may name an item replaced before (`C95_changed_refuted`), `removing` and `moving` may be followed by `IndexError`
    (`C95_fail_refuted`), and a copy kept by events may have another order for good (`C95_mirror_refuted`).
74. `paused()` reads `_is_paused` when the context manager is made and sets it in `__enter__` (`_signal.py:1534,1540`), and `__exit__` resumes only if the signal was not paused: if two bulk methods of an `EventedSet` overlap so that the second reads before and pauses after the first one's `resume`, the signal
    **stays paused for good** and no change of the set is told any more (`C96_stuck_refuted`).  Other overlaps lose a change that is recorded between reduction and `_args_queue.clear()` (`C96_lost_refuted`), leave one recorded without pause (`C96_left_refuted`), tell one twice (`C96_twice_refuted`,
    `C96_double_refuted`), tell addition after removal (`C96_order_refuted`), or drop an item in `clear` without telling (`C96_clear_refuted`).
75. The containers are **not serialisable**: two threads that do the same assignment, or add the same item, can both tell the listeners that they did it, which no order of the two operations does (`C97_set_refuted`, `C97_dict_refuted`, `C97_list_refuted`).
76. Attributes are **not serialisable** either: two threads that assign 1 to an attribute that is 0 both tell 0 to 1, and two that assign a field with dependents may both tell nothing; no order of the assignments does that (`C98_refuted`, `C98_dependents_refuted`).

