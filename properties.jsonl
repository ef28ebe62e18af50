{"id": "C01", "title": "Callbacks are kept in priority order", "statement": "After any history of connects, disconnects, emissions and owner deaths, the callbacks of a signal are ordered by decreasing `priority`, and callbacks of equal priority keep the order in which they were connected.", "quantifier": "every signal, every program of API calls (including calls made from inside callbacks), every integer priority", "why_tests_cant": "the order depends on the whole history of connect/disconnect calls (and on a cached 'priority in use' flag), which is unbounded", "anchors": ["src/psygnal/_signal.py:SignalInstance.connect", "src/psygnal/_signal.py:SignalInstance._append_slot"]}
{"id": "C02", "title": "connect / disconnect / in / len behave like an ordered multiset of callbacks", "statement": "`connect(f)` adds exactly one occurrence of f; `f in sig` is true iff an occurrence is present; `len(sig)` counts occurrences; `disconnect(f)` removes exactly the first occurrence of f and leaves all other callbacks and their order untouched; `disconnect()` removes all; with missing_ok=False disconnecting an absent callback raises ValueError and changes nothing.", "quantifier": "every signal state and every callable", "why_tests_cant": "holds for every list of connected callbacks, including duplicates and mixed priorities", "anchors": ["src/psygnal/_signal.py:SignalInstance.connect", "src/psygnal/_signal.py:SignalInstance.disconnect", "src/psygnal/_signal.py:SignalInstance.__contains__", "src/psygnal/_signal.py:SignalInstance.__len__", "src/psygnal/_signal.py:SignalInstance._slot_index"]}
{"id": "C03", "title": "unique connections never duplicate", "statement": "If every connection to a signal is made with `unique=True` (or 'raise'), then at no time is the same callback connected twice; `unique='raise'` raises exactly when the callback is already connected, and a refused connect changes nothing.", "quantifier": "all histories of unique connects and arbitrary disconnects/deaths", "why_tests_cant": "history quantification", "anchors": ["src/psygnal/_signal.py:SignalInstance.connect"]}
{"id": "C04", "title": "One emission calls every connected callback exactly once, in order, with the emitted arguments", "statement": "When `emit(*args)` returns normally and no callback changed the signal's connections, the emission invoked every connected callback exactly once, in connection/priority order, each with (pre-bound args +) the first max_args of `args`; this stays true when callbacks emit other signals, re-emit the same signal (immediate mode), block, pause or resume.", "quantifier": "all callback behaviours, all nesting depths, all slot lists, all arguments", "why_tests_cant": "callbacks are arbitrary user code and can re-enter the library to any depth", "anchors": ["src/psygnal/_signal.py:SignalInstance.emit", "src/psygnal/_signal.py:SignalInstance._run_emit_loop", "src/psygnal/_signal.py:SignalInstance._run_emit_loop_immediate", "src/psygnal/_weak_callback.py:StrongFunction.cb", "src/psygnal/_weak_callback.py:WeakMethod.cb"]}
{"id": "C05", "title": "Signal.current_emitter() is right inside callbacks and restored afterwards", "statement": "Inside a callback run by `emit`, `Signal.current_emitter()` is the signal that was emitted; after any emit/emit_fast/resume/emit_queued call returns or raises, it is what it was before the call.", "quantifier": "all programs, nested emissions and exceptions (single thread of control)", "why_tests_cant": "restoration must hold at every nesting depth and for every exception point", "anchors": ["src/psygnal/_signal.py:Signal._emitting", "src/psygnal/_signal.py:Signal.current_emitter", "src/psygnal/_signal.py:SignalInstance._run_emit_loop"]}
{"id": "C06", "title": "Callback errors surface as a single EmitLoopError and stop the emission", "statement": "If a callback raises an ordinary exception, `emit` raises EmitLoopError naming the innermost emitting signal whose cause is that exception; an EmitLoopError crossing outer emissions is not wrapped again; RecursionError stays a RecursionError; non-Exception BaseExceptions pass through unchanged; no callback after the failing one is invoked by that emission.", "quantifier": "all exceptions, all nesting depths, all positions of the failing callback", "why_tests_cant": "every failing position and nesting depth", "anchors": ["src/psygnal/_signal.py:SignalInstance._run_emit_loop", "src/psygnal/_signal.py:SignalInstance.emit_fast", "src/psygnal/_exceptions.py:EmitLoopError"]}
{"id": "C07", "title": "A signal is back at rest after every emission, also after exceptions", "statement": "Whatever callbacks do and however they fail, once control is back outside all emissions the signal's internal emission state (nesting depth, re-emission queue) is back to its initial value, so the next emission behaves as on a fresh signal with the same connections.", "quantifier": "all histories of top-level API calls with arbitrary callbacks", "why_tests_cant": "crash points: exception at any callback, at any depth, in any re-emission mode", "anchors": ["src/psygnal/_signal.py:SignalInstance._run_emit_loop", "src/psygnal/_signal.py:SignalInstance.emit_fast"]}
{"id": "C08", "title": "Re-emission is bounded: no callback ever runs deeper than 300 nested emissions of one signal, and emissions terminate", "statement": "No callback is ever invoked at a nesting depth above the recursion limit (300) of its signal; emissions (in all re-emission modes) of finitely many signals whose callbacks make finitely many API calls and do not connect, resume, drain thread queues or install debug hooks always terminate (with RecursionError if the limit is hit).", "quantifier": "all callback behaviours", "why_tests_cant": "unbounded recursion patterns", "anchors": ["src/psygnal/_signal.py:RECURSION_LIMIT", "src/psygnal/_signal.py:SignalInstance._run_emit_loop", "src/psygnal/_signal.py:SignalInstance.emit_fast"]}
{"id": "C09", "title": "reemission='immediate' is depth-first", "statement": "In immediate mode, when a callback re-emits, the nested emission is completely processed (all callbacks) before the callback returns, and then the remaining callbacks of the outer emission still run with the outer value.", "quantifier": "all callback behaviours and nesting", "why_tests_cant": "the order must hold for every re-emission tree", "anchors": ["src/psygnal/_signal.py:SignalInstance._run_emit_loop_immediate"]}
{"id": "C10", "title": "reemission='queued' is breadth-first FIFO", "statement": "In queued mode, all callbacks are called with the first emitted value before any is called with a value emitted by a callback; values emitted by callbacks are delivered to all callbacks, each exactly once, in the order in which they were emitted.", "quantifier": "all callback behaviours; any number of queued values up to the limit", "why_tests_cant": "every re-emission history", "anchors": ["src/psygnal/_signal.py:SignalInstance._run_emit_loop_queued"]}
{"id": "C11", "title": "reemission='latest-only' drops stale values and delivers the latest", "statement": "In latest-only mode, once a callback has re-emitted the signal, no further callback of the outer emission is called with the outer (stale) value; and the most recently emitted value is delivered to every callback.", "quantifier": "all callback behaviours", "why_tests_cant": "every re-emission history; the code tracks this with a depth high-water mark", "anchors": ["src/psygnal/_signal.py:SignalInstance._run_emit_loop_latest_only"]}
{"id": "C12", "title": "Blocking silences a signal and blocked() restores the previous state", "statement": "While a signal is blocked, emit/emit_fast invoke no callback, collect nothing and change no state; after `with sig.blocked():` — nested to any depth, left normally or by exception — the signal is blocked iff it was blocked when the context manager was created (unless the body itself changed it).", "quantifier": "all programs nested in blocked() contexts, all exits", "why_tests_cant": "arbitrary nesting and exception exits", "anchors": ["src/psygnal/_signal.py:_SignalBlocker", "src/psygnal/_signal.py:SignalInstance.block", "src/psygnal/_signal.py:SignalInstance.emit", "src/psygnal/_signal.py:SignalInstance.emit_fast"]}
{"id": "C13", "title": "Pausing collects emissions; resume delivers each exactly once in order", "statement": "While paused, emit calls no callback and records its arguments; resume() with no reducer emits the recorded arguments in order, each exactly once, and empties the record; with a reducer it emits exactly the reduced value once; a nested paused() does not resume early; with no connected callbacks the record is discarded.", "quantifier": "all emission sequences, reducers, nestings, and exceptions raised by callbacks during resume", "why_tests_cant": "unbounded sequences; exception at any replayed item", "anchors": ["src/psygnal/_signal.py:SignalInstance.pause", "src/psygnal/_signal.py:SignalInstance.resume", "src/psygnal/_signal.py:_SignalPauser"]}
{"id": "C14", "title": "emit_fast delivers like emit", "statement": "emit_fast honours blocked and paused like emit, and otherwise invokes the same callbacks in the same order with the same arguments as an immediate-mode emit, with the same recursion limit and the same exception wrapping.", "quantifier": "all callback behaviours", "why_tests_cant": "all slot lists and nestings", "anchors": ["src/psygnal/_signal.py:SignalInstance.emit_fast"]}
{"id": "C15", "title": "Connections to dead objects vanish", "statement": "When an object dies, every connection to a bound method / callable object / setattr / setitem of that object is removed from every signal, no other connection is affected, and no callback of a dead object is ever invoked afterwards — even if it was already waiting in a thread queue.", "quantifier": "all histories of connects, disconnects and deaths, deaths at any point", "why_tests_cant": "death may happen at any point of any history; duplicates of a callback share one identity key", "anchors": ["src/psygnal/_weak_callback.py:_kill_and_finalize", "src/psygnal/_weak_callback.py:WeakCallback._try_ref", "src/psygnal/_signal.py:SignalInstance._try_discard", "src/psygnal/_signal.py:SignalInstance._remove_slot"]}
{"id": "C16", "title": "Argument-count checking on connect is sound and complete", "statement": "With check_nargs, connect(f) succeeds iff f can be called with some prefix of the signal's n positional arguments; and when it succeeds, calling f with the prefix psygnal passes for an n-argument emission never fails to bind.", "quantifier": "all Python signatures (any number/kind of parameters) and all signal arities", "why_tests_cant": "the set of signatures is infinite", "anchors": ["src/psygnal/_signal.py:_acceptable_posarg_range", "src/psygnal/_signal.py:SignalInstance._check_nargs", "src/psygnal/_signal.py:SignalInstance.connect"]}
{"id": "C17", "title": "Thread-bound callbacks run only on their thread, in order, once", "statement": "A callback connected with thread=T is invoked synchronously if the emitting thread is T; otherwise each emission puts it on T's queue exactly once and it is invoked exactly once, in queueing order, only by emit_queued on that queue.", "quantifier": "all histories of emissions from any threads and emit_queued calls", "why_tests_cant": "unbounded interleavings of emissions and drains", "anchors": ["src/psygnal/_queue.py:QueuedCallback", "src/psygnal/_queue.py:emit_queued"]}
{"id": "C18", "title": "An error in a queued callback loses only that callback", "statement": "If a queued callback raises while emit_queued runs, emit_queued raises EmitLoopError caused by it, that callback is consumed, the remaining queued callbacks stay queued in order, and calling emit_queued again continues with them.", "quantifier": "all queue contents and failing positions", "why_tests_cant": "every failing position", "anchors": ["src/psygnal/_queue.py:emit_queued"]}
{"id": "C19", "title": "A group listener hears every child emission once", "statement": "If a callback is connected to a SignalGroup (group.connect / group.all.connect), every emission of any child signal invokes it exactly once with EmissionInfo(signal=that child, args=the emitted args), after any history of connects/disconnects on the group.", "quantifier": "all groups, histories of group connect/disconnect and child emissions", "why_tests_cant": "history quantification; relay connection is switched on/off by slot counts", "anchors": ["src/psygnal/_group.py:SignalRelay._append_slot", "src/psygnal/_group.py:SignalRelay._remove_slot", "src/psygnal/_group.py:SignalRelay._slot_relay"]}
{"id": "C20", "title": "Blocking a group blocks all non-excluded members and unblocking restores them", "statement": "group.block() silences all non-excluded members; leaving `with group.blocked(exclude=...)` leaves every member blocked iff it was blocked before, also for nested contexts.", "quantifier": "all groups, exclusion lists, prior block states and nestings", "why_tests_cant": "arbitrary nesting and prior states", "anchors": ["src/psygnal/_group.py:SignalRelay.block", "src/psygnal/_group.py:SignalRelay.unblock", "src/psygnal/_signal.py:_SignalBlocker"]}
{"id": "C21", "title": "Pausing a group holds back group notifications", "statement": "While a group is paused, group listeners are not called; they are called on resume.", "quantifier": "all groups, listeners and emission histories", "why_tests_cant": "history quantification", "anchors": ["src/psygnal/_group.py:SignalGroup.pause", "src/psygnal/_group.py:SignalRelay._slot_relay", "src/psygnal/_signal.py:SignalInstance.resume"]}
{"id": "C22", "title": "group.disconnect removes the listener from the group and all members", "statement": "group.disconnect(f) removes f from the group and from every member signal; with missing_ok=False it raises ValueError only if f was not connected; group.disconnect() removes everything.", "quantifier": "all groups and connection states", "why_tests_cant": "all connection states", "anchors": ["src/psygnal/_group.py:SignalRelay.disconnect"]}
{"id": "C23", "title": "A stored weak callback calls the original callable with the same arguments", "statement": "weak_callback(c).cb(args) performs the same call as c(*args[:max_args]) for functions, lambdas, bound methods, builtin methods, callable objects, functools.partial of these, partial(setattr, obj, name), partial(obj.__setitem__, key) (tuple-packing when not exactly one argument).", "quantifier": "all callables built from these constructors, all argument lists and max_args", "why_tests_cant": "infinite family of callables/arguments", "anchors": ["src/psygnal/_weak_callback.py:weak_callback", "src/psygnal/_weak_callback.py:StrongFunction.cb", "src/psygnal/_weak_callback.py:WeakFunction.cb", "src/psygnal/_weak_callback.py:WeakMethod.cb", "src/psygnal/_weak_callback.py:WeakBuiltin.cb", "src/psygnal/_weak_callback.py:WeakSetattr.cb", "src/psygnal/_weak_callback.py:WeakSetitem.cb"]}
{"id": "C24", "title": "Callback identity: equal exactly for the same callable", "statement": "Two callables are treated as the same connection (for `in`, unique and disconnect) iff they denote the same function / the same method of the same object / the same attribute or item of the same object (bound partial arguments included).", "quantifier": "all pairs of callables", "why_tests_cant": "infinite domain of pairs", "anchors": ["src/psygnal/_weak_callback.py:WeakCallback.object_key", "src/psygnal/_weak_callback.py:WeakCallback.__eq__"]}
{"id": "C25", "title": "Pickle / deepcopy preserves a signal", "statement": "Copying a SignalInstance through __getstate__/__setstate__ preserves name, signature, block/pause state, pending paused arguments, re-emission mode and all strongly referenced callbacks with their priorities and order, drops weak ones; the copy can be used like the original.", "quantifier": "all signal states", "why_tests_cant": "all states", "anchors": ["src/psygnal/_signal.py:SignalInstance.__getstate__", "src/psygnal/_signal.py:SignalInstance.__setstate__", "src/psygnal/_weak_callback.py:StrongFunction.__getstate__"]}
{"id": "C26", "title": "Accessing a signal on an object always yields that object's own signal", "statement": "obj.sig always returns the same SignalInstance for the same live object and different SignalInstances for different objects, whose .instance is obj — also for slotted / non-weakref-able objects and when memory addresses are reused after objects die.", "quantifier": "all histories of object creation, attribute access and object death with address reuse", "why_tests_cant": "address reuse histories", "anchors": ["src/psygnal/_signal.py:Signal.__get__", "src/psygnal/_signal.py:Signal._cache_signal_instance", "src/psygnal/_signal.py:SignalInstance._instance_ref"]}
{"id": "C27", "title": "EventedList behaves exactly like list", "statement": "For every sequence of operations (insert, append, extend, pop, remove, del, setitem with ints and slices, reverse, clear, +=, ...), EventedList holds the same elements, returns the same results and raises the same kind of error as a built-in list.", "quantifier": "all lists, all operation sequences, all (negative, out-of-range) indices and slices", "why_tests_cant": "infinite index/slice/operation space", "anchors": ["src/psygnal/containers/_evented_list.py:EventedList.insert", "src/psygnal/containers/_evented_list.py:EventedList.__setitem__", "src/psygnal/containers/_evented_list.py:EventedList.__delitem__", "src/psygnal/containers/_evented_list.py:EventedList._delitem_indices", "src/psygnal/containers/_evented_list.py:EventedList.reverse"]}
{"id": "C28", "title": "EventedList events tell the whole story", "statement": "An observer that applies every inserted/removed/changed/moved event (and re-reads on reordered) to its own copy always has exactly the contents of the list; every inserted/removed event is preceded by the matching inserting/removing event emitted while the list was still unmodified.", "quantifier": "all operation sequences", "why_tests_cant": "history quantification", "anchors": ["src/psygnal/containers/_evented_list.py:EventedList", "src/psygnal/containers/_evented_list.py:ListEvents"]}
{"id": "C29", "title": "move and move_multiple place items where documented", "statement": "move(src, dest) moves the item before position dest (pre-move space) and keeps all other items in order; move_multiple(sources, dest) yields: unmoved items before dest, then the sources in the given order, then the unmoved items from dest on; both are permutations of the list.", "quantifier": "all lists, all in-range src/dest/sources", "why_tests_cant": "all index combinations", "anchors": ["src/psygnal/containers/_evented_list.py:EventedList.move", "src/psygnal/containers/_evented_list.py:EventedList.move_multiple", "src/psygnal/containers/_evented_list.py:EventedList._move_plan"]}
{"id": "C30", "title": "EventedDict behaves exactly like dict and its events tell the whole story", "statement": "For every sequence of operations EventedDict holds the same items in the same order and returns/raises as a built-in dict (subject to basetype checks, which reject a value without changing the dict); applying the added/changed/removed events to a copy reproduces the dict; 'ing' events precede their change.", "quantifier": "all operation sequences, all keys and values", "why_tests_cant": "history quantification", "anchors": ["src/psygnal/containers/_evented_dict.py:EventedDict.__setitem__", "src/psygnal/containers/_evented_dict.py:EventedDict.__delitem__", "src/psygnal/containers/_evented_dict.py:TypedMutableMapping"]}
{"id": "C31", "title": "EventedSet behaves exactly like set and items_changed is exact", "statement": "Every (bulk) operation leaves the same elements as on a built-in set and emits items_changed at most once, iff something changed, with added/removed exactly the elements that were added/removed.", "quantifier": "all sets, all operations and arguments", "why_tests_cant": "infinite domain", "anchors": ["src/psygnal/containers/_evented_set.py:EventedSet", "src/psygnal/containers/_evented_set.py:_BaseMutableSet", "src/psygnal/containers/_evented_set.py:_reduce_events"]}
{"id": "C32", "title": "OrderedSet keeps insertion order", "statement": "Iteration over an OrderedSet yields distinct elements in order of first insertion since last removal, for every history; its set algebra agrees with set algebra.", "quantifier": "all operation histories", "why_tests_cant": "history quantification", "anchors": ["src/psygnal/containers/_evented_set.py:OrderedSet"]}
{"id": "C33", "title": "Selection: active/current stay consistent with the selected items", "statement": "After every operation on a Selection, `active` is x iff x is the only selected item (None otherwise), and an active item is the current item; items_changed/active events report changes.", "quantifier": "all operation histories", "why_tests_cant": "history quantification over a mutually recursive update protocol", "anchors": ["src/psygnal/containers/_selection.py:Selection", "src/psygnal/containers/_selection.py:Selection._update_active", "src/psygnal/containers/_selection.py:Selection.active"]}
{"id": "C34", "title": "SelectableEventedList: selected items are in the list", "statement": "After every operation on the list or its selection, every selected item is an element of the list.", "quantifier": "all operation histories", "why_tests_cant": "history quantification", "anchors": ["src/psygnal/containers/_selectable_evented_list.py:SelectableEventedList", "src/psygnal/containers/_selection.py:Selection._pre_add_hook"]}
{"id": "C35", "title": "Child events: listeners are attached to exactly the children in the list", "statement": "With child_events=True, each signal of each child currently in the list is connected to the list's re-emitter once per occurrence, and removed children are not.", "quantifier": "all operation histories", "why_tests_cant": "history quantification", "anchors": ["src/psygnal/containers/_evented_list.py:EventedList._post_insert", "src/psygnal/containers/_evented_list.py:EventedList._pre_remove", "src/psygnal/containers/_evented_list.py:EventedList._connect_child_emitters"]}
{"id": "C36", "title": "Throttler: at most one call per interval", "statement": "Between two invocations of a throttled function at least `interval` elapses (when neither flush nor cancel is used).", "quantifier": "all timed call sequences", "why_tests_cant": "dense/unbounded timing space", "anchors": ["src/psygnal/_throttler.py:Throttler", "src/psygnal/_throttler.py:_ThrottlerBase"]}
{"id": "C37", "title": "Throttler/Debouncer never lose the last call", "statement": "After any sequence of calls, once time advances by the interval with no further calls, the wrapped function has been invoked with the arguments of the last call (unless cancelled), and nothing stays pending.", "quantifier": "all timed call sequences", "why_tests_cant": "timing/interleaving space", "anchors": ["src/psygnal/_throttler.py:Throttler.__call__", "src/psygnal/_throttler.py:Debouncer.__call__", "src/psygnal/_throttler.py:_ThrottlerBase._call_if_has_pending"]}
{"id": "C38", "title": "Debouncer waits for quiet", "statement": "A trailing-edge debounced function is invoked only when at least `interval` has elapsed since the last call, once per burst, with the last arguments of the burst; cancel prevents a pending invocation; flush performs it at once.", "quantifier": "all timed call sequences", "why_tests_cant": "timing space", "anchors": ["src/psygnal/_throttler.py:Debouncer", "src/psygnal/_throttler.py:_ThrottlerBase.cancel", "src/psygnal/_throttler.py:_ThrottlerBase.flush"]}
{"id": "C39", "title": "evented attribute assignment emits exactly on change", "statement": "Setting a field of an evented dataclass-like object emits the field's signal exactly once with (new, old) if the stored value changed according to the field's equality operator, and emits nothing otherwise; the attribute value afterwards is exactly what plain assignment would have stored, whether or not there are listeners.", "quantifier": "all objects, fields, values, equality operators, alias maps", "why_tests_cant": "infinite domain", "anchors": ["src/psygnal/_group_descriptor.py:evented_setattr", "src/psygnal/_group_descriptor.py:_changes_emitted", "src/psygnal/_group_descriptor.py:_check_field_equality", "src/psygnal/_group_descriptor.py:get_signal_from_field"]}
{"id": "C40", "title": "EventedModel: changed fields and dependent properties are reported once with final values", "statement": "After an assignment to an EventedModel (possibly through property setters that assign several fields, possibly with callbacks that assign more fields), every field/dependent property with listeners whose value changed has been emitted with its current value, nothing was emitted for unchanged ones, and the change bookkeeping is empty again.", "quantifier": "all models, dependency maps, setters and callbacks", "why_tests_cant": "re-entrant assignments of arbitrary depth", "anchors": ["src/psygnal/_evented_model.py:EventedModel._setattr_impl", "src/psygnal/_evented_model.py:EventedModel._check_if_values_changed_and_emit_if_needed", "src/psygnal/_evented_model.py:ComparisonDelayer", "src/psygnal/_evented_model.py:EventedModel._setattr_no_dependants"]}
{"id": "C41", "title": "Signal aliases map fields to signals as documented", "statement": "When a signal group is built for a dataclass, each field gets a signal named by: the alias mapping, else the alias callable, else the group-class alias, else the field name; None means no signal; duplicate or pre-existing names are skipped; and setting the field emits exactly that signal.", "quantifier": "all field lists and alias maps", "why_tests_cant": "infinite domain", "anchors": ["src/psygnal/_group_descriptor.py:_build_dataclass_signal_group", "src/psygnal/_group_descriptor.py:get_signal_from_field"]}
{"id": "C42", "title": "Equality fallback never lets comparison errors escape", "statement": "_check_field_equality never raises for values whose comparison raises: it falls back to array equality and finally identity, remembers the working operator, and agrees with == whenever == works.", "quantifier": "all values and comparison behaviours", "why_tests_cant": "comparison is arbitrary user code", "anchors": ["src/psygnal/_group_descriptor.py:_check_field_equality", "src/psygnal/_group_descriptor.py:_pick_equality_operator"]}
{"id": "C43", "title": "EventedObjectProxy is transparent and reports changes", "statement": "Attribute/item operations on the proxy have the same effect and result as on the wrapped object; attribute_set/item_set fire iff the stored object changed; deletions fire attribute_deleted/item_deleted after success.", "quantifier": "all objects and operations", "why_tests_cant": "infinite domain", "anchors": ["src/psygnal/containers/_evented_proxy.py:EventedObjectProxy"]}
{"id": "C44", "title": "monitor_events leaves no trace", "statement": "After `with monitor_events(...)` exits (normally or by exception), all signals have exactly the connections they had before plus those made by the body, and the global debug hook is restored.", "quantifier": "all objects, bodies and exits, nested monitors", "why_tests_cant": "arbitrary bodies", "anchors": ["src/psygnal/utils.py:monitor_events", "src/psygnal/utils.py:iter_signal_instances", "src/psygnal/_signal.py:SignalInstance.emit"]}
{"id": "C45", "title": "Concurrent emissions of one signal do not interleave", "statement": "For any number of threads emitting the same signal, the callback invocations of different emissions never interleave.", "quantifier": "all schedules of any number of threads", "why_tests_cant": "schedules are unbounded and nondeterministic", "anchors": ["src/psygnal/_signal.py:SignalInstance._run_emit_loop", "src/psygnal/_signal.py:SignalInstance._lock"]}
{"id": "C46", "title": "current_emitter is per emission, also across threads", "statement": "A callback sees its own emitting signal as Signal.current_emitter() even if other threads emit other signals concurrently, and after all emissions finish it is None.", "quantifier": "all schedules", "why_tests_cant": "schedules", "anchors": ["src/psygnal/_signal.py:Signal._current_emitter", "src/psygnal/_signal.py:Signal._emitting"]}
{"id": "C47", "title": "Emission cannot deadlock when callbacks emit in an acyclic order", "statement": "If callbacks only emit signals later in some global order, no schedule of threads emitting signals deadlocks; with cyclic emission a deadlock is possible.", "quantifier": "all schedules, any number of threads and signals", "why_tests_cant": "schedules", "anchors": ["src/psygnal/_signal.py:SignalInstance._lock", "src/psygnal/_signal.py:SignalInstance._run_emit_loop"]}
{"id": "C48", "title": "Emissions concurrent with resume are not lost", "statement": "An emission performed while another thread resumes a paused signal is either delivered or still recorded for the next resume.", "quantifier": "all schedules", "why_tests_cant": "schedules", "anchors": ["src/psygnal/_signal.py:SignalInstance.resume", "src/psygnal/_signal.py:SignalInstance.emit"]}
{"id": "C49", "title": "Connecting and disconnecting during an emission", "statement": "When callbacks connect or disconnect during an emission, every callback that stays connected during the whole emission is still called exactly once; callbacks disconnected before their turn are not called.", "quantifier": "all executions, all callbacks", "why_tests_cant": "positions of the changes in the list, priorities, nesting", "anchors": ["src/psygnal/_signal.py:SignalInstance._run_emit_loop_immediate", "src/psygnal/_signal.py:SignalInstance._append_slot", "src/psygnal/_signal.py:SignalInstance._remove_slot"]}
{"id": "C50", "title": "The group an object returns", "statement": "Reading the group attribute of an object (`obj.events`) always returns the SignalGroup of that object, made by that descriptor for the class of the object, and the same one at every read, whatever other objects and classes were created, read or collected before; the caches do not keep entries of objects that are gone.", "quantifier": "all histories of creation, collection, copying and reads, all reuses of addresses", "why_tests_cant": "the caches are keyed by id(), so a wrong answer needs a collection and the reuse of an address between two reads", "anchors": ["src/psygnal/_group_descriptor.py:SignalGroupDescriptor.__get__", "src/psygnal/_group_descriptor.py:SignalGroupDescriptor._get_signal_group", "src/psygnal/_group_descriptor.py:_get_eq_operator_map"]}
{"id": "C51", "title": "Queued callbacks with concurrent threads", "statement": "Callbacks connected with thread=T and emitted from any number of threads at the same time are each invoked exactly once, on T, with their arguments, in the order they were queued, by emit_queued() in T, which never blocks.", "quantifier": "all schedules, numbers of threads, callbacks that emit or call emit_queued themselves", "why_tests_cant": "races between threads at the first use of a queue and between the test for emptiness and the removal", "anchors": ["src/psygnal/_queue.py:QueuedCallback.cb", "src/psygnal/_queue.py:emit_queued", "src/psygnal/_queue.py:QueuedCallback._GLOBAL_QUEUE"]}
{"id": "C52", "title": "Recursion limit with concurrent threads", "statement": "With any number of threads emitting at the same time, an emission raises RecursionError only if the emitting thread itself is nested in RECURSION_LIMIT emissions of that signal, and no thread is ever nested deeper; and when no thread is in an emission of a signal any more (whether they ended normally or with exceptions) its recursion counters are 0 and its queue is empty, so later emissions are not affected.", "quantifier": "all schedules, numbers of threads and signals, callbacks (that emit, raise, change the connections), reemission modes, limits", "why_tests_cant": "the counter is read before the lock is taken; whether another thread is nested at that moment depends on the schedule", "anchors": ["src/psygnal/_signal.py:SignalInstance._run_emit_loop", "src/psygnal/_signal.py:RECURSION_LIMIT"]}
{"id": "C53", "title": "emit_fast from several threads", "statement": "Every emission with emit_fast that returns has called each connected callback exactly once, in order, with its own arguments, also when several threads emit the same signal at the same time with emit_fast and emit; and when all emissions have ended the recursion counter of the signal is 0, so later emissions are not affected.", "quantifier": "all schedules, numbers of threads and signals, callbacks that emit (nested, either way) or raise, limits", "why_tests_cant": "`+= 1` and `-= 1` are a load and a store each; a lost update needs a particular schedule", "anchors": ["src/psygnal/_signal.py:SignalInstance.emit_fast", "src/psygnal/_signal.py:SignalInstance._run_emit_loop"]}
{"id": "C54", "title": "Signals of a group by name", "statement": "Iteration, len, `in` and [] of a SignalGroup agree and list exactly the names under which a Signal is found on its class or was collected by its bases; group[name] is always the same SignalInstance, belongs to that group and has that name; group.name is group[name] for every name that is not an attribute of SignalGroup (and does not start with psygnal), while those names keep their meaning; defining a subclass fails only for a body with names starting with _psygnal or, with strict, for signals whose signatures differ.", "quantifier": "all class hierarchies (any MRO, mixins, several groups as bases, overriding attributes, reserved names), any numbers of signals, classes and instances, any order of class definitions, instantiations and attribute accesses", "why_tests_cant": "the tests define a handful of classes; the clashes arise from combinations of inheritance, reserved names and names given to signals", "anchors": ["src/psygnal/_group.py:SignalGroup.__init_subclass__", "src/psygnal/_group.py:SignalGroup.__init__", "src/psygnal/_group.py:SignalGroup.__getitem__", "src/psygnal/_group.py:_is_uniform", "src/psygnal/_signal.py:Signal.__get__", "src/psygnal/_signal.py:Signal.__set_name__"]}
{"id": "C55", "title": "Queued signals lose nothing with several threads", "statement": "When several threads emit a signal whose reemission mode is 'queued', also from its own callbacks, every emission calls every callback exactly once with its own arguments, the emissions one after the other in the order in which they got the signal's lock and the callbacks in the order of connection, as long as no callback raises and the connections stay; if callbacks raise, no call happens twice or out of this order. A thread's emissions are delivered in the order it makes them.", "quantifier": "any number of threads, any code in threads and callbacks (nested emissions of any signals, locks held), any schedule, any numbers of callbacks and emissions", "why_tests_cant": "the interleavings of threads, in particular around the append to the queue, the end of the loop and the clearing of the queue, cannot be forced by tests", "anchors": ["src/psygnal/_signal.py:SignalInstance._run_emit_loop", "src/psygnal/_signal.py:SignalInstance._run_emit_loop_queued", "src/psygnal/_signal.py:SignalInstance.emit"]}
{"id": "C56", "title": "Attributes bound with connect_setattr follow the fields", "statement": "Assigning a value to a field of an evented dataclass sets exactly the attributes bound to it with signal.connect_setattr, directly or through other fields that change, and terminates also if bindings form circles; every field that changes emits exactly once with the new and its old value, and each other callback of its signal is called as often as it is connected. Fields bound to each other both ways always have equal values. An attribute is bound as often as it was connected and not disconnected by disconnect_setattr while its object lives; other callbacks stay connected.", "quantifier": "all graphs of bindings between any number of fields and attributes, all values and equality operators, all sequences of assignments, connections, disconnections and deaths of objects", "why_tests_cant": "the tests bind one or two attributes; termination and agreement depend on the shape of the graph, the order of bindings and the values everywhere in it", "anchors": ["src/psygnal/_signal.py:SignalInstance.connect_setattr", "src/psygnal/_signal.py:SignalInstance.disconnect_setattr", "src/psygnal/_weak_callback.py:WeakSetattr.cb", "src/psygnal/_group_descriptor.py:_changes_emitted", "src/psygnal/_group_descriptor.py:evented_setattr", "src/psygnal/_group_descriptor.py:_DataclassFieldSignalInstance"]}
{"id": "C57", "title": "Listeners of a group with several threads", "statement": "While several threads emit signals, connect listeners to group.all and disconnect them: a listener whose connect returned before an emission of a member started and which is not disconnected before that emission ends is called in it exactly once, in the emitting thread, with an EmissionInfo that names the emitted signal and its arguments. After disconnect(f) or disconnect() has returned the listener is not called any more. When no connect or disconnect is in progress, each member has the group's relay exactly once if the group has listeners and not at all otherwise.", "quantifier": "any number of threads, members, other signals and listeners, any code of threads and callbacks (nested emissions; depending on all that happened), all interleavings", "why_tests_cant": "the tests use groups in one thread; what goes wrong depends on an interleaving of a few attribute accesses in two threads", "anchors": ["src/psygnal/_group.py:SignalRelay._append_slot", "src/psygnal/_group.py:SignalRelay._connect_relay", "src/psygnal/_group.py:SignalRelay._remove_slot", "src/psygnal/_group.py:SignalRelay._disconnect_relay", "src/psygnal/_group.py:SignalRelay._slot_relay", "src/psygnal/_group.py:SignalRelay.disconnect", "src/psygnal/_signal.py:Signal._emitting", "src/psygnal/_signal.py:SignalInstance._try_discard", "src/psygnal/_signal.py:SignalInstance._run_emit_loop"]}
{"id": "C58", "title": "EventedModel.update, reset and ==", "statement": "model.update(values) sets exactly the named fields, updates nested models in place (recurse=True), and tells listeners of each model about exactly those fields whose value changed, in the order of values, once each; it succeeds exactly if all names are fields that can be assigned; an exception leaves what was assigned before it and nothing after it. a.update(b) for models of the same structure makes a == b with equal dumps, keeps all model objects of a and, done again, tells nobody. model == model compares field by field and is reflexive, symmetric and transitive among models of the same structure. model.reset() restores the values a new model has, nested models included, and tells listeners of exactly the fields that changed.", "quantifier": "all trees of models and values, classes, defaults, frozen fields, values passed as dict or model, and any == of field values", "why_tests_cant": "the tests update a few models one or two levels deep; the claims range over all shapes of models, values and defaults, at any depth", "anchors": ["src/psygnal/_evented_model.py:EventedModel.update", "src/psygnal/_evented_model.py:EventedModel.reset", "src/psygnal/_evented_model.py:EventedModel.__eq__", "src/psygnal/_evented_model.py:_get_defaults", "src/psygnal/_evented_model.py:_model_dump", "src/psygnal/_group_descriptor.py:_check_field_equality"]}
{"id": "C59", "title": "Classes of evented models", "statement": "For every sequence of class statements: the class of an evented model raises ValueError exactly if its reemission setting is not valid, property setters are forbidden although a base allows them, or a name declared to depend on others is neither a field nor a settable property. model.events has a signal, with the configured mode, for exactly the fields that are not frozen and the settable properties. Assigning a name calls the setter of the property that Python finds under that name, inherited ones included, and a class derived from one that allows setters allows them. A change of a field is reported for exactly the names declared to depend on it and, with guessing, for the settable properties whose getter uses it; each of these has a signal.", "quantifier": "all sequences of class statements with any bases, mixins, properties, fields and configurations; all values and listeners of the instances", "why_tests_cant": "the tests define a few classes with one base at most; the claims range over all hierarchies and configurations", "anchors": ["src/psygnal/_evented_model.py:EventedMetaclass.__new__", "src/psygnal/_evented_model.py:_get_field_dependents", "src/psygnal/_evented_model.py:EventedModel._super_setattr_"]}
{"id": "C60", "title": "Type checking on connect and emit", "statement": "With check_types=True, connect accepts a callback exactly if its annotations are compatible with the types of the signal, and emit accepts arguments exactly if each is an instance of its type; otherwise ValueError resp. TypeError is raised and nothing happens. Hence, if number and types are checked whenever something is connected or emitted, every call binds to the signature of the callback and every parameter gets an instance of its annotation. A blocked signal checks nothing; emissions of a paused signal are checked when they are emitted.", "quantifier": "all class hierarchies, types, signatures, annotations, arguments and programs of connect, emit, block, unblock, pause, resume", "why_tests_cant": "the tests connect a handful of functions to Signal(int) and the like; the claims range over all hierarchies, signatures and programs", "anchors": ["src/psygnal/_signal.py:_parameter_types_match", "src/psygnal/_signal.py:_is_subclass", "src/psygnal/_signal.py:SignalInstance.connect", "src/psygnal/_signal.py:SignalInstance.emit", "src/psygnal/_signal.py:_build_signature"]}
{"id": "C61", "title": "Patched __setattr__ in class hierarchies", "statement": "In any hierarchy of classes with SignalGroupDescriptors and user-written __setattr__ methods: an assignment obj.f = v changes at most that attribute, to v or not at all; every event it reports carries the true old and new value, and an assignment that changes nothing reports nothing. If all descriptors have one name and patch, every change of a field with a listener is reported; exactly once if no __setattr__ calling super() has an evented class behind it in the MRO. With single inheritance the value is what the __setattr__ methods make of it, as if psygnal were absent. Classes without a patching descriptor in their MRO are not affected.", "quantifier": "all programs of class statements (any MRO, descriptors, __setattr__ methods), instances, group accesses, connections and assignments, in any order", "why_tests_cant": "patching happens lazily, on the first access to a group of a class, so the result depends on the order in which classes are defined and used; tests fix one order and at most one level of inheritance", "anchors": ["src/psygnal/_group_descriptor.py:evented_setattr", "src/psygnal/_group_descriptor.py:_changes_emitted", "src/psygnal/_group_descriptor.py:SignalGroupDescriptor._do_patch_setattr", "src/psygnal/_group_descriptor.py:SignalGroupDescriptor.__get__", "src/psygnal/_group_descriptor.py:SignalGroupDescriptor._create_group"]}
{"id": "C62", "title": "Group classes shared by descriptors", "statement": "In any program with SignalGroup classes (with aliases, subclassing each other) and SignalGroupDescriptors that are given one of them as signal_group_class, with or without collect_fields: an assignment obj.f = v sets that attribute, and reports at most one event, with the true old and new value, if they differ, on a signal with a listener. If the group classes used by non-collecting descriptors with aliases serve one descriptor each and have no subclasses, the event is on the signal that signal_aliases of the descriptor, then the aliases of the group class, then the field name say (None: no event), and the group has exactly the signals of its class plus, when collecting, one per field under that name. A subclass of a group class has its signals and aliases besides its own. A user-written group class changes only when a group of a non-collecting descriptor with it is made for a class, and then only by the aliases of that descriptor.", "quantifier": "all programs of SignalGroup class statements, descriptors, classes with them, instances, group accesses, connections and assignments, in any order", "why_tests_cant": "the documentation says that a deepcopy of signal_group_class is used; deepcopy of a class is the class itself, so aliases of one descriptor show up elsewhere, depending on the order of first accesses; tests use each group class once", "anchors": ["src/psygnal/_group_descriptor.py:SignalGroupDescriptor._create_group", "src/psygnal/_group_descriptor.py:_build_dataclass_signal_group", "src/psygnal/_group_descriptor.py:get_signal_from_field", "src/psygnal/_group_descriptor.py:evented_setattr", "src/psygnal/_group.py:SignalGroup.__init_subclass__"]}
{"id": "C63", "title": "Qt timers and the emission queues", "statement": "With start_emitting_from_queue and stop_emitting_from_queue called in any threads: a callback connected with thread=t runs in thread t; nothing in a queue is lost, doubled or overtaken; when the timer of a thread has timed out and the thread is idle again without an exception, everything that was queued for it has run there. A thread that is idle and had no exceptions has emitted exactly what the code it ran says. A queue is emptied only in its own thread and only if that thread itself called start_emitting_from_queue. If threads start and stop only their own timers: a timer started and not stopped since times out, with the interval given last; after a stop nothing is delivered until the next start.", "quantifier": "all callbacks (emitting to any threads, raising, running nested event loops, starting and stopping timers), all numbers of threads, all interleavings", "why_tests_cant": "the tests use one timer in the main thread; the thread argument, nested event loops and interleavings with other threads need many schedules", "anchors": ["src/psygnal/qt.py:start_emitting_from_queue", "src/psygnal/qt.py:stop_emitting_from_queue", "src/psygnal/_queue.py:emit_queued", "src/psygnal/_queue.py:QueuedCallback.cb"]}
{"id": "C64", "title": "Listeners that operate on the list or dict that they listen to", "statement": "Listeners of an EventedList or EventedDict may call any of its methods, whose events are again listened to, to any depth of nesting, and may raise. An observer connected before them that performs the reported changes on its own copy has exactly the contents of the container, right after every event and after every operation.", "quantifier": "all initial contents, all sequences of operations, all listener programs (operations chosen depending on the events so far and on results), all depths of nesting", "why_tests_cant": "the tests connect listeners that only record; nested operations happen between the announcement, the change and the report of another operation, in unboundedly many combinations", "anchors": ["src/psygnal/containers/_evented_list.py:EventedList.insert", "src/psygnal/containers/_evented_list.py:EventedList.__delitem__", "src/psygnal/containers/_evented_list.py:EventedList.move_multiple", "src/psygnal/containers/_evented_dict.py:EventedDict.__setitem__", "src/psygnal/containers/_evented_dict.py:EventedDict.__delitem__"]}
{"id": "C65", "title": "Listeners that operate on the set that they listen to", "statement": "Listeners of an EventedSet may call any of its methods; the changes they make are reported in further events, in the order of the changes, after the current one. After every operation, an observer that has applied all events to its own copy has exactly the elements of the set, and every event reports exactly one change.", "quantifier": "all initial sets, all sequences of operations, all listener programs (operations chosen depending on the events so far and on results), any number of further events", "why_tests_cant": "the tests connect listeners that only record; emissions that wait, pausing and the collected changes interact in unboundedly many combinations", "anchors": ["src/psygnal/containers/_evented_set.py:EventedSet.update", "src/psygnal/containers/_evented_set.py:_reduce_events", "src/psygnal/_signal.py:SignalInstance._run_emit_loop_queued", "src/psygnal/_signal.py:SignalInstance.resume"]}
{"id": "C66", "title": "Operations on evented lists and dicts emit exactly their events", "statement": "An operation on an EventedList or EventedDict that succeeds emits exactly the events of the changes it makes, each with its position or key and value and in order: an announcement and a report for each item inserted, removed or moved, a report for each value replaced by a different one, nothing if nothing is assigned, moved, inserted or removed. An operation that raises emits nothing.", "quantifier": "all contents, all sequences of operations before, all operations and arguments (indices, slices, keys, values)", "why_tests_cant": "tests check the calls of some mocks for some arguments; that no event is spurious or missing for any slice, any update, or any failing call needs all cases", "anchors": ["src/psygnal/containers/_evented_list.py:EventedList.__setitem__", "src/psygnal/containers/_evented_list.py:EventedList.__delitem__", "src/psygnal/containers/_evented_list.py:EventedList.insert", "src/psygnal/containers/_evented_list.py:EventedList.move", "src/psygnal/containers/_evented_list.py:EventedList.move_multiple", "src/psygnal/containers/_evented_list.py:EventedList.reverse", "src/psygnal/containers/_evented_dict.py:EventedDict.__setitem__", "src/psygnal/containers/_evented_dict.py:EventedDict.__delitem__"]}
{"id": "C67", "title": "What a failing emission raises and says", "statement": "When a callback raises an ordinary exception, the emission raises EmitLoopError with that exception as cause, whatever the exception, the owner of the signal, the emitted arguments and the local variables of the callback are. Its message begins with the name of the signal and the class and text of the exception, tells how deep the emission is nested in callbacks of the same signal, where it was emitted and where the error occurred, the number of frames between the callback and the error, the local variables there, and, for queued signals, the arguments and queue depth of the emission whose delivery failed.", "quantifier": "all executions, all emissions that fail, all stacks, tracebacks, local variables, all results of user-defined __str__, __repr__, __bool__, including exceptions", "why_tests_cant": "tests look for a few strings in the messages of a few errors; the combinations of nesting, queueing, missing frames and raising __repr__ are unbounded", "anchors": ["src/psygnal/_exceptions.py:EmitLoopError.__init__", "src/psygnal/_exceptions.py:_build_psygnal_exception_msg", "src/psygnal/_exceptions.py:_fmt_locals", "src/psygnal/_signal.py:SignalInstance._run_emit_loop", "src/psygnal/_signal.py:SignalInstance.emit_fast", "src/psygnal/_queue.py:emit_queued"]}
{"id": "C68", "title": "The fields of evented classes", "statement": "The group of an evented class has exactly one signal for each of its mutable fields, declared by the class or by a base, whichever of dataclasses, attrs, pydantic and msgspec made them; a field that is declared again has the type, and so the comparison, of the latest declaration; ClassVar and InitVar annotations and frozen fields have none. evented raises TypeError for frozen classes and classes with a field whose name starts with _psygnal; the attribute that get_evented_namespace names is the group, and is_evented tells which classes have one.", "quantifier": "all chains of base classes, all annotations, all assignments of attributes, all namespaces", "why_tests_cant": "tests use a few classes with one library and no or one base; chains, redeclarations and mixtures of libraries are unbounded", "anchors": ["src/psygnal/_dataclass_utils.py:iter_fields", "src/psygnal/_dataclass_utils.py:is_frozen", "src/psygnal/_evented_decorator.py:evented", "src/psygnal/_group_descriptor.py:_build_dataclass_signal_group", "src/psygnal/_group_descriptor.py:is_evented", "src/psygnal/_group_descriptor.py:get_evented_namespace", "src/psygnal/_group_descriptor.py:SignalGroupDescriptor.__set_name__"]}
{"id": "C69", "title": "Listeners that assign fields of the evented object they listen to", "statement": "When listeners of an evented dataclass read and assign its fields, every listener of a field is told every change of it exactly once, each change beginning with the value the one before ended with, and the last value it is told is the value of the field; so values computed by listeners from other fields are up to date. An exception in a listener of one field does not keep listeners of other fields from being informed.", "quantifier": "all programs and listeners, with any nesting of assignments, all initial values, all converting or raising setters, all recursion limits", "why_tests_cant": "tests have single listeners that do not assign anything; executions with nested assignments to several fields are unbounded", "anchors": ["src/psygnal/_group_descriptor.py:evented_setattr", "src/psygnal/_group_descriptor.py:_changes_emitted", "src/psygnal/_signal.py:SignalInstance._run_emit_loop", "src/psygnal/_signal.py:SignalInstance._run_emit_loop_immediate"]}
{"id": "C70", "title": "Listeners that operate on the selection they listen to", "statement": "Also when listeners of a Selection's events themselves select, deselect, clear or activate items, the documented relation between selected items, active item and current item holds at the end: an item is active just if it is the only selected one, an active item is the current one, selected items are distinct and in the parent; setting active makes that item the only selected one, and listeners are told every change once, ending with the actual value. Listeners that only observe or raise change nothing about C33.", "quantifier": "all listeners (programs over all operations, depending on the whole history of events), all histories, initial items, parents, nesting limits", "why_tests_cant": "the tests connect mocks; nested operations from listeners of three signals with different reemission modes are unbounded", "anchors": ["src/psygnal/containers/_selection.py:Selection", "src/psygnal/containers/_evented_set.py:EventedSet", "src/psygnal/_signal.py:SignalInstance._run_emit_loop_queued", "src/psygnal/_signal.py:SignalInstance.resume"]}
{"id": "C71", "title": "First accesses from several threads", "statement": "However many threads access obj.sig (or obj.events of an evented class, or proxy.events) and however they are interleaved, all accesses return the same object, made at the first access, so that callbacks connected in one thread hear what is emitted in another.", "quantifier": "all numbers of threads, all interleavings of single operations on the two places where the object is kept, all kinds of objects (with and without a usable __dict__, groups stored on the object or not, proxies)", "why_tests_cant": "tests access attributes in one thread; the interleavings that matter last for a few bytecodes", "anchors": ["src/psygnal/_signal.py:Signal.__get__", "src/psygnal/_signal.py:Signal._cache_signal_instance", "src/psygnal/_group_descriptor.py:SignalGroupDescriptor.__get__", "src/psygnal/containers/_evented_proxy.py:EventedObjectProxy.events"]}
{"id": "C72", "title": "decompile and recompile undo each other", "statement": "psygnal.utils.decompile() leaves no compiled file (.so, .pyd) in its place, loses no contents, touches no other files, and recompile() afterwards brings back exactly the files there were; likewise decompile() after recompile().", "quantifier": "all sets of files in all directories below the package, with any names and contents", "why_tests_cant": "the functions are excluded from coverage and change the installed package; tests never run them on a directory with left-over backups", "anchors": ["src/psygnal/utils.py:decompile", "src/psygnal/utils.py:recompile"]}
{"id": "C73", "title": "Temporary settings are undone", "statement": "Inside `with Model.enums_as_values(v)` the configuration of Model has use_enum_values = v, inside `with no_class_attributes()` (when PySide2 is imported) classes are created with the replacement of ClassAttribute; after the statement, whether it ended normally or by an exception and however such statements are nested, every setting is what it was before.", "quantifier": "all programs that use the two context managers, in any nesting, with exceptions and handlers and imports of PySide2 at any place; pydantic 1 and 2", "why_tests_cant": "both functions are excluded from coverage; tests use one statement at a time and never nest them", "anchors": ["src/psygnal/_evented_model.py:no_class_attributes", "src/psygnal/_evented_model.py:EventedModel.enums_as_values"]}
{"id": "C74", "title": "Copies of evented objects", "statement": "A copy (copy.copy or copy.deepcopy) of an object of an evented class has the same field values, its own events and none of the callbacks of the original: a callback is called exactly when a field of the object it was connected to changes, and the events of every object are bound to that object.", "quantifier": "all sequences of looking up events, connecting, assigning, copying and deep-copying, with any number of objects, copies of copies, fields and callbacks; groups kept in the __dict__ of the object or not", "why_tests_cant": "tests copy one object once, before or after one access; what goes wrong depends on the order of accesses and copies", "anchors": ["src/psygnal/_group_descriptor.py:SignalGroupDescriptor.__get__", "src/psygnal/_group_descriptor.py:evented_setattr", "src/psygnal/_group.py:SignalGroup.__deepcopy__"]}
{"id": "C75", "title": "Connecting directly to all signals of a group; strict groups", "statement": "SignalGroup.connect_direct(f) connects f to all members or, if it raises, to none; afterwards f is called exactly once for each emission of each member, with as many of the emitted arguments as it accepts, until group.disconnect(f) removes it and leaves everything else as if f had never been connected. A group class with strict=True exists only if all its signals, inherited ones included, have the same signature, and psygnals_uniform() tells whether they have.", "quantifier": "all chains of group classes, all signatures of signals and callbacks, all sequences of connecting (directly, to the group, to one member; with all arguments), disconnecting and emitting", "why_tests_cant": "tests connect one callback to one group of two or three signals; half-way failures, look-alike types and interleavings with other connections are not enumerated", "anchors": ["src/psygnal/_group.py:SignalRelay.connect_direct", "src/psygnal/_group.py:SignalRelay.disconnect", "src/psygnal/_group.py:SignalGroup.__init_subclass__", "src/psygnal/_group.py:_is_uniform"]}
{"id": "C76", "title": "Qt signals as callbacks", "statement": "Connecting a signal of Qt (PyQt or PySide) or its emit method to a psygnal signal with k parameters is refused exactly if the Qt signal has more than k parameters; otherwise every emission passes exactly as many values as the Qt signal has parameters. Connecting a callback never calls it, and on_ref_error decides what happens to callbacks that cannot be referenced weakly.", "quantifier": "all names and lists of parameter types of Qt signals, both libraries, signal or emit method, all signatures of other callables, all numbers of parameters, all options check_nargs, max_args, on_ref_error", "why_tests_cant": "the tests connect three Qt signals with at most one parameter; the number of parameters is found by taking strings and error messages apart, whose form depends on all names", "anchors": ["src/psygnal/_signal.py:_guess_qtsignal_signature", "src/psygnal/_signal.py:_ridiculously_call_emit", "src/psygnal/_signal.py:_acceptable_posarg_range", "src/psygnal/_signal.py:SignalInstance._check_nargs", "src/psygnal/_signal.py:SignalInstance.connect"]}
{"id": "C77", "title": "Throttled and debounced functions as callbacks", "statement": "After signal.connect(throttled(f)) or signal.connect(debounced(f)), every emission of the signal calls the throttler with as many of the emitted arguments as f accepts; f is invoked at most once per interval (throttled) or only after the interval has passed without an emission (debounced), always with the arguments of the latest call, and the last emission is not lost, also if the program drops its references to the throttler meanwhile. Emissions never fail because a throttler has been collected.", "quantifier": "all numbers of signals, throttlers and debouncers, all signatures, intervals and policies, all histories of connections, disconnections, emissions, calls, cancellations, flushes, dropped references, garbage collections and late timers", "why_tests_cant": "the tests connect one decorated function that the module keeps alive and emit once; what happens to throttlers that nothing else refers to depends on reference counts, cycles, collector and timers", "anchors": ["src/psygnal/_throttler.py:throttled", "src/psygnal/_throttler.py:debounced", "src/psygnal/_throttler.py:_ThrottlerBase.__signature__", "src/psygnal/_weak_callback.py:weak_callback", "src/psygnal/_weak_callback.py:WeakFunction", "src/psygnal/_signal.py:SignalInstance.connect"]}
{"id": "C78", "title": "SelectableEventedList: what the commands select", "statement": "select_next(step) makes the item step places after the current one current, stopping at the ends of the list or going round with wraparound; that item alone is selected, or joins the selection with expand_selection, and repeating the command visits the items one after the other. With nothing selected it takes the last item for a positive step and the first otherwise; on an empty list it does nothing. select_all selects exactly the items of the list, deselect_all leaves nothing selected, active or current, remove_selected removes and returns exactly the selected items and then selects the item before the last one removed, inserting an item selects just that one, and clear empties list and selection.", "quantifier": "all items, steps, lists and selections reachable by operations on the list and on its selection other than assignments to items of the list (C34), with listeners that do not raise", "why_tests_cant": "the tests step by one in lists of distinct integers; the position of the current item, the ends, wraparound and the item chosen after a removal depend on the whole history", "anchors": ["src/psygnal/containers/_selectable_evented_list.py:SelectableEventedList.select_next", "src/psygnal/containers/_selectable_evented_list.py:SelectableEventedList.select_previous", "src/psygnal/containers/_selectable_evented_list.py:SelectableEventedList.select_all", "src/psygnal/containers/_selectable_evented_list.py:SelectableEventedList.deselect_all", "src/psygnal/containers/_selectable_evented_list.py:SelectableEventedList.remove_selected", "src/psygnal/containers/_selectable_evented_list.py:SelectableEventedList.insert"]}
{"id": "C79", "title": "EventedList: what child_event reports", "statement": "An EventedList with child_events=True reports every emission of a signal of a child in the list, found as an attribute of the child or as a member of a signal group of it, exactly once, with the index of the child, the child, the signal and the emitted arguments. It reports nothing else: no emission of a child that is not in the list any more, and nothing that was not emitted.", "quantifier": "all lists, children, signals and groups, all histories of operations on the list and of emissions before and after", "why_tests_cant": "the tests have one list of three different objects of one class and emit once; the index, the object and the signal are looked up at the time of the emission, in the list as it is then and through the emitter that is current in the thread", "anchors": ["src/psygnal/containers/_evented_list.py:EventedList._reemit_child_event", "src/psygnal/containers/_evented_list.py:EventedList._connect_child_emitters", "src/psygnal/containers/_evented_list.py:EventedList._disconnect_child_emitters", "src/psygnal/_group.py:SignalRelay._slot_relay", "src/psygnal/_signal.py:Signal.current_emitter"]}
{"id": "C80", "title": "Copies of evented containers", "statement": "copy(), copy.copy, slices, + and set operations, and copy.deepcopy of an evented container make a new container of the same class with the same contents (deepcopy: copies of them), with the options of the original, equal to the original, and with nothing connected to its events. Making it changes nothing and calls no callback. Afterwards the two are independent: a change of one, a selection in it or a connection to it does not change the other, and is told only to the callbacks connected to the changed one. The hash of a container never changes.", "quantifier": "all programs that make, copy, change and connect any number of containers in any order, all contents and options", "why_tests_cant": "the tests copy one fresh container once and compare it with the original; they do not go on to change, connect or copy the copies, and not with other options", "anchors": ["src/psygnal/containers/_evented_list.py:EventedList.__newlike__", "src/psygnal/containers/_evented_list.py:EventedList.copy", "src/psygnal/containers/_evented_list.py:EventedList.__hash__", "src/psygnal/containers/_evented_dict.py:TypedMutableMapping.__newlike__", "src/psygnal/containers/_evented_set.py:_BaseMutableSet.copy", "src/psygnal/_group.py:SignalGroup.__deepcopy__"]}
{"id": "C81", "title": "Signals that have nothing to do with each other do not affect each other", "statement": "Let the signals, groups, callbacks, objects and memory of a program fall into two sides: no callback of one side is connected to a signal of the other, a group is on the side of its members, and the code of a side uses its own side only. Then code of one side leaves the signals of the other (connections, blocking, pausing, queues, depth), its objects, its memory and its waiting callbacks as they were, emits none of its signals and calls none of its callbacks. Whatever the state of the other side, it has the same result and makes the same calls in the same order with the same arguments. Programs of both sides run in any order and in any threads, one at a time, have the same results and leave each side in the same state as if only the programs of that side had been run.", "quantifier": "all environments and divisions into two sides, all programs of either side that do not call emit_queued and do not set the debug hook, with all nested emissions, exceptions and contexts; programs started outside of emissions of the other side", "why_tests_cant": "noninterference is about pairs of executions, for every state of everything that is not mentioned; the tests use one or two signals at a time", "anchors": ["src/psygnal/_signal.py:SignalInstance._run_emit_loop", "src/psygnal/_signal.py:SignalInstance.emit_fast", "src/psygnal/_signal.py:Signal._emitting", "src/psygnal/_signal.py:SignalInstance.resume", "src/psygnal/_group.py:SignalRelay._slot_relay", "src/psygnal/_group.py:SignalRelay.block", "src/psygnal/_queue.py:QueuedCallback.cb"]}
{"id": "C82", "title": "Threads that use different signals do not disturb each other", "statement": "If the threads of a program fall into two sets that use different signals, directly and through their callbacks, then under every schedule each set behaves as if the other did not run: the same callbacks are called with the same arguments in the same order, the same emissions end with the same results, the signals have the same connections, and no thread waits for a lock held by a thread of the other set. A thread with signals of its own does what the same code does in a program with one thread, whatever other threads do.", "quantifier": "all numbers of threads, all schedules, all programs that emit, connect and disconnect (also while holding the lock), in all reemission modes, with exceptions, that do not call Signal.current_emitter", "why_tests_cant": "the tests of threads let a few threads emit one signal, under the schedules that happen to occur", "anchors": ["src/psygnal/_signal.py:SignalInstance._run_emit_loop", "src/psygnal/_signal.py:SignalInstance._run_emit_loop_queued", "src/psygnal/_signal.py:SignalInstance._run_emit_loop_latest_only", "src/psygnal/_signal.py:Signal._emitting"]}
{"id": "C83", "title": "Which programs end", "statement": "Every program ends, whatever exceptions are raised and caught, if its callbacks emit and resume only finitely many signals and do not connect, pause, drain the queue of another thread or install a debug hook, and if the program outside callbacks does not drain the queue of another thread or install a debug hook; outside callbacks everything else is allowed, also connecting, pausing and resuming any signals, and inside callbacks everything else is allowed, also resuming a signal that is being resumed and draining the queue that is being drained. The conditions are needed: an emission whose callback connects a callback goes on for ever, resume goes on for ever when a callback pauses and emits, and emit_queued(t) for another thread goes on for ever when a queued callback emits its signal.", "quantifier": "all programs, all callbacks, all reachable states, all reemission modes", "why_tests_cant": "a test can observe that some programs end, not that all do, and none can observe that a program never ends", "anchors": ["src/psygnal/_signal.py:SignalInstance._run_emit_loop", "src/psygnal/_signal.py:SignalInstance.resume", "src/psygnal/_queue.py:emit_queued"]}
{"id": "C84", "title": "The re-emission mode matters only for signals that are emitted while being emitted", "statement": "If signals and callbacks can be given levels such that callbacks emit and resume only signals below them and are connected only to signals that are not below them (so that no signal is emitted by callbacks that it calls, directly or through other signals and groups), then every sequence of programs, run from the beginning in any threads, does the same in all re-emission modes, chosen for each signal separately: it ends in the one if in the other, with the same results and exceptions, the same calls with the same arguments in the same order, and the same state of all signals; whenever a signal calls a callback it is being emitted once. With a callback that emits its own signal all three modes differ.", "quantifier": "all programs, all callbacks, all assignments of re-emission modes to signals, all levels", "why_tests_cant": "tests compare the modes on single nested examples; that they agree on everything not nested is a statement about all programs", "anchors": ["src/psygnal/_signal.py:SignalInstance._run_emit_loop_immediate", "src/psygnal/_signal.py:SignalInstance._run_emit_loop_latest_only", "src/psygnal/_signal.py:SignalInstance._run_emit_loop_queued"]}
{"id": "C85", "title": "blocked() and paused() as objects: any order, any thread", "statement": "The context managers returned by SignalInstance.blocked() and paused() can be used as objects: entered and left in any order and by any threads, they leave the signal blocked, and paused, exactly if it was before; a signal is blocked (paused) as long as one of them is open; no emission made while pausers overlap is lost, delivered twice or out of order. A with statement is creating, entering, the body and leaving.", "quantifier": "all numbers and orders of managers, all interleavings of the steps of threads, all other code in between, all callbacks", "why_tests_cant": "tests use with statements of one thread; the managers read the flag of the signal when they are created, set it when entered, and reset it when left, and these three steps of several managers can be interleaved in any way", "anchors": ["src/psygnal/_signal.py:_SignalBlocker", "src/psygnal/_signal.py:_SignalPauser", "src/psygnal/_signal.py:SignalInstance.blocked", "src/psygnal/_signal.py:SignalInstance.paused", "src/psygnal/_group.py:SignalRelay.blocked"]}
{"id": "C86", "title": "The callbacks that connect_setattr and connect_setitem return", "statement": "The callback that connect_setattr (connect_setitem) returns can be given to connect and disconnect of any signal. It is then called in the order of its priority with the arguments cut to its max_args; disconnect takes out the first slot for the same attribute of the same object; when the object dies its slots are gone and no emission raises because of it.", "quantifier": "all numbers of signals, objects and callbacks; all sequences of connect_setattr, connect, disconnect, disconnect_setattr, del, garbage collections, deaths and emissions", "why_tests_cant": "the outcome depends on which signal made the callback, how often and where it has been connected since, whether it has been destroyed, and on the order of deaths and emissions; tests connect such a callback once, to the signal that made it", "anchors": ["src/psygnal/_signal.py:SignalInstance.connect_setattr", "src/psygnal/_signal.py:SignalInstance.connect", "src/psygnal/_signal.py:SignalInstance._try_discard", "src/psygnal/_signal.py:SignalInstance._append_slot", "src/psygnal/_weak_callback.py:weak_callback", "src/psygnal/_weak_callback.py:WeakSetattr", "src/psygnal/_weak_callback.py:_kill_and_finalize"]}
{"id": "C87", "title": "emit_fast can stand for emit in whole programs", "statement": "In programs and callbacks any calls of emit can be replaced by emit_fast, or the other way round, for signals with immediate re-emission that are in no group, with arguments that bind to the signature where emit checks them, if nothing asks for Signal.current_emitter(), sets a debug hook or calls emit_fast on a member of a group: run from the beginning in any threads the two versions end alike, with the same results and exceptions, the same calls with the same arguments in the same order, at the same depths and in the same threads, and the same connections, flags, queues and memory. The same holds for signals of all modes if no signal is emitted by callbacks that it calls. Without any one of the conditions the two differ.", "quantifier": "all programs, all callbacks, all sets of replaced calls, all nestings", "why_tests_cant": "tests compare emit and emit_fast for single emissions; what they do inside nested emissions, after exceptions, under blocking and pausing, or together with other modes and groups is a statement about all programs", "anchors": ["src/psygnal/_signal.py:SignalInstance.emit_fast", "src/psygnal/_signal.py:SignalInstance.emit", "src/psygnal/_signal.py:SignalInstance._run_emit_loop"]}
{"id": "C88", "title": "A watching callback of lowest priority does not disturb", "statement": "Take programs run in turns from the beginning in any threads, and connect one more function to a signal that is not a group, at any point between the programs, with a negative priority lower than those of all other callbacks of the signal, whose code only looks at its arguments. If nothing else connects, disconnects or looks for this function, asks for the number of callbacks of the signal, pauses the signal, or calls emit_fast on a member of a group, then programs that end without the function end with it, with the same results and exceptions, and everything else is the same: all calls of other callbacks with their arguments, order, depths, current emitters and threads, memory, connections, flags and queues. With the default priority, or without any one of the other conditions, it can change what other callbacks see.", "quantifier": "all programs, all callbacks, all points at which the watcher is connected, all nestings and modes", "why_tests_cant": "tests connect listeners and look at what these receive; that an added listener changes nothing for all others, in nested emissions, with callbacks that disconnect themselves, in queued and latest-only mode and in groups, compares two executions of every program", "anchors": ["src/psygnal/_signal.py:SignalInstance.connect", "src/psygnal/_signal.py:SignalInstance._append_slot", "src/psygnal/_signal.py:SignalInstance._run_emit_loop", "src/psygnal/_group.py:SignalRelay._slot_relay"]}
{"id": "C89", "title": "Hidden imports for PyInstaller", "statement": "When the program is packed with PyInstaller, the hook names the modules queue, mypy_extensions and __future__ and exactly the compiled modules of psygnal, each by its dotted name whatever tag and separator its file name has, in the order of the record of installed files; if the record has less than two compiled modules (an editable installation), those of the package directory and of the directory that contains it instead; without an installed package or record only the three.", "quantifier": "all records of installed files, all directories, all file names, both separators", "why_tests_cant": "the tests call the hook for the one installation they run in", "anchors": ["src/psygnal/_pyinstaller_util/hook-psygnal.py:create_hiddenimports", "src/psygnal/_pyinstaller_util/hook-psygnal.py:binary_files"]}
{"id": "C90", "title": "Connecting and disconnecting in several threads", "statement": "However many threads connect, disconnect, look for and count the callbacks of a signal and emit it at the same time, and whatever callbacks die meanwhile: every call has its effect at one moment between call and return, as if it were alone - connect puts the callback behind those of the same and of higher priority (unique refuses one that is connected), disconnect removes the first one equal to it, in and len tell what is connected, an emission calls exactly the callbacks that are connected, in order. Callbacks stay in the order of priorities, with unique none is connected twice. No thread waits for ever for the lock of the signal.", "quantifier": "all programs of any number of threads, all schedules of their steps, all moments of deaths", "why_tests_cant": "the outcome depends on how the single steps of the threads and of the garbage collector are interleaved; tests see a few of these orders", "anchors": ["src/psygnal/_signal.py:SignalInstance.connect", "src/psygnal/_signal.py:SignalInstance._append_slot", "src/psygnal/_signal.py:SignalInstance.disconnect", "src/psygnal/_signal.py:SignalInstance._slot_index", "src/psygnal/_signal.py:SignalInstance._try_discard"]}
{"id": "C91", "title": "Which operator compares the values of a field", "statement": "Whatever groups are made and whatever is assigned and compared on objects of whatever classes, the values of a field of a class are compared with the operator that was given for it: that in equality_operators of the descriptor, also for classes that inherit the descriptor; else that in __eq_operators__ of the class; else that for the type of the field. Only a failing comparison of the same field of the same class changes it (C42). Two evented models are equal iff their fields are, as compared by the operators of the class.", "quantifier": "all classes and inheritance, all descriptors, all histories of accesses, assignments and comparisons, all comparison functions", "why_tests_cant": "the operators are kept in dicts that are shared, filled and changed as a side effect of accesses and comparisons of any object; tests look at one class and few operations", "anchors": ["src/psygnal/_group_descriptor.py:_get_eq_operator_map", "src/psygnal/_group_descriptor.py:_check_field_equality", "src/psygnal/_group_descriptor.py:_build_dataclass_signal_group", "src/psygnal/_evented_model.py:EventedModel.__eq__"]}
{"id": "C92", "title": "Assigning evented attributes in several threads", "statement": "Whatever threads assign and read the listened-to attributes of an evented dataclass or evented model, in whatever interleaving: an attribute holds the value stored last. Every event reports as old value one the attribute held between the beginning of its assignment and the storing, as new value one it held between the storing and the event (for a model: the value assigned), and the operator of the field says that they differ; an assignment without event saw two values that the operator says are equal. Every assignment stores once and then ends once. The final value is reported by the thread that stored it unless it equals the value that thread saw before. A listener that keeps the last value reported has the value of the attribute whenever nobody assigns it.", "quantifier": "all programs of any number of threads, all interleavings, all operators", "why_tests_cant": "reading the old value, storing, reading the new one, comparing and emitting are separate steps without a lock; tests see few of the interleavings", "anchors": ["src/psygnal/_group_descriptor.py:_changes_emitted", "src/psygnal/_group_descriptor.py:evented_setattr", "src/psygnal/_evented_model.py:EventedModel._setattr_no_dependants"]}
{"id": "C93", "title": "Assigning fields of evented models with dependent properties in several threads", "statement": "Whatever fields of an evented model with properties are assigned by whatever threads, in whatever interleaving: a field holds the value stored last. Every assignment stores once, then tells names their new values, then returns; it raises nothing. What is told of a field or property is a value it had between the storing and the telling, and it or a field on which it depends was assigned. When assignments do not overlap, each tells the field if it changed and those of its dependent properties that changed. Every change is told, also later: the counter of delays, the queue of changes and the primary changes are empty when nobody assigns.", "quantifier": "all classes, all assignments of any number of threads, all interleavings, all operators", "why_tests_cant": "the counter is changed by unprotected += and -=, queue and set are filled and cleared by all threads; tests use one thread", "anchors": ["src/psygnal/_evented_model.py:ComparisonDelayer", "src/psygnal/_evented_model.py:EventedModel._check_if_values_changed_and_emit_if_needed", "src/psygnal/_evented_model.py:EventedModel._setattr_with_dependents", "src/psygnal/_evented_model.py:EventedModel._setattr_impl"]}
{"id": "C94", "title": "An evented dictionary in several threads", "statement": "Whatever threads assign, delete and look up items of an EventedDict, in whatever interleaving: a key holds the value stored last unless it was deleted since, and a look-up gives what it holds then. Each operation makes its events as a whole, in order. added means that the key was not there at a moment of the assignment, changed that it held the old value, which is not the new one, removed that it held the item, and after that the value was stored or the key deleted. Two deletions do not both succeed for one stored value. Operations raise KeyError only if the key is missing or another thread deletes it meanwhile. Someone who keeps a copy by following the events has the contents of the dictionary whenever nobody changes it; assignments do not raise KeyError; removed names the value that was removed; pop returns the value that it removes.", "quantifier": "all programs of any number of threads, all interleavings, all dictionaries", "why_tests_cant": "there is no lock between looking, emitting and storing; the outcomes depend on the interleaving; tests use one thread", "anchors": ["src/psygnal/containers/_evented_dict.py:EventedDict.__setitem__", "src/psygnal/containers/_evented_dict.py:EventedDict.__delitem__", "src/psygnal/containers/_evented_dict.py:TypedMutableMapping.__getitem__"]}
{"id": "C95", "title": "An evented list in several threads", "statement": "Whatever threads insert, assign, delete, move and look up items of an EventedList, in whatever interleaving: the list is what a plain list is after the same changes one at a time, and a look-up gives what is there then. Each operation makes its events as a whole, in order. removed and moved name the very item that was taken from the list; changed names an item that was at the index at a moment of the assignment and is not the new one. When nobody is in an operation the length is the old one plus the insertions told minus the removals told, and without assignments each item is there as often as the events say. IndexError comes only if the index was bad when the operation began or another thread has removed an item meanwhile. Someone who keeps a copy by following the events has the contents of the list whenever nobody changes it; append puts the item at the end; pop returns the item that it removes; a move never hides an item.", "quantifier": "all programs of any number of threads, all interleavings, all lists and indices", "why_tests_cant": "there is no lock between computing the index, emitting and changing the list; the outcomes depend on the interleaving; tests use one thread", "anchors": ["src/psygnal/containers/_evented_list.py:EventedList.insert", "src/psygnal/containers/_evented_list.py:EventedList.__setitem__", "src/psygnal/containers/_evented_list.py:EventedList.__delitem__", "src/psygnal/containers/_evented_list.py:EventedList.move"]}
{"id": "C96", "title": "An evented set in several threads", "statement": "Whatever threads add and discard items of an EventedSet, call update, difference_update, intersection_update, symmetric_difference_update or clear, and look items up, in whatever interleaving: the set has the items that a plain set has after the same changes one at a time, and a look-up says what is there then. Each call makes its events as a whole, in order. What is told at once is exactly the change that the thread has just made; what a bulk method tells at its end is everything recorded at that moment; nothing is told that was not stored or dropped before. Every change is told or recorded exactly once; if only add and discard are used, every change is told exactly once. Someone who counts what is told knows the items of the set whenever nobody is in a method; every change made is told in the end; no change is told twice; and the signal is not paused when no bulk method is under way.", "quantifier": "all programs of any number of threads, all interleavings, all sets", "why_tests_cant": "there is no lock between testing, changing and emitting, nor between asking whether the signal is paused and pausing it; the outcomes depend on the interleaving; tests use one thread", "anchors": ["src/psygnal/containers/_evented_set.py:EventedSet.update", "src/psygnal/containers/_evented_set.py:EventedSet.clear", "src/psygnal/containers/_evented_set.py:_BaseMutableSet.add", "src/psygnal/containers/_evented_set.py:_BaseMutableSet.discard", "src/psygnal/_signal.py:_SignalPauser", "src/psygnal/_signal.py:SignalInstance.resume"]}
{"id": "C97", "title": "Containers used by several threads one at a time", "statement": "Whatever threads use an EventedSet, EventedDict or EventedList, in whatever order: the items that are there, the events that are told, in order and each with the contents at that moment, and what the operations return or raise are the same as if the operations were done one after the other in one thread, in some order; if one thread changes the container and the others only look, or if no two operations are under way at the same time, in the order in which they began.", "quantifier": "all programs of any number of threads, all interleavings, all contents", "why_tests_cant": "the claim compares every interleaving with a run in one thread; tests use one thread", "anchors": ["src/psygnal/containers/_evented_set.py:EventedSet", "src/psygnal/containers/_evented_dict.py:EventedDict", "src/psygnal/containers/_evented_list.py:EventedList"]}
{"id": "C98", "title": "Evented attributes that several threads assign one at a time", "statement": "Whatever threads assign attributes of an evented dataclass or fields of an EventedModel, in whatever order: the values at the end and what listeners are told, in order, of fields and of dependent properties, are the same as if the assignments were made one after the other in one thread, in some order; if one thread assigns an attribute, or if no two assignments of it (with dependent properties: of any field) are under way at the same time, in the order in which they began.", "quantifier": "all programs of any number of threads, all interleavings, all values, operators and getters", "why_tests_cant": "the claim compares every interleaving with a run in one thread; tests use one thread", "anchors": ["src/psygnal/_group_descriptor.py:evented_setattr", "src/psygnal/_evented_model.py:EventedModel.__setattr__"]}
{"id": "C99", "title": "A lock around the operations is enough", "statement": "If every operation on an EventedSet, EventedDict or EventedList, or every assignment of attributes of an evented dataclass or EventedModel, is made in a block `with lock:` (one lock per object), then for all programs of all threads and all interleavings: whenever nobody holds the lock, the contents, what listeners were told and what the operations returned or raised are the same as if the operations were made one after the other in one thread in the order in which the lock was got; and a thread that holds the lock, if it goes on, lets it go. Looking needs no lock. Whenever nobody holds the lock, someone who keeps a copy of a dictionary or list by following what is told has the contents, and someone who counts the items of a set told as added and removed has one for the items in it and zero for the others; who keeps the last value told of an attribute, field or dependent property has its value, if the operators are not true of different values and properties depend only on the fields that declare them. At any time what is told as changed or removed is what the copy has, and an operation raises KeyError or IndexError only if the copy lacks the key or index.", "quantifier": "all programs of any number of threads, all interleavings, all contents, values, operators and getters", "why_tests_cant": "the claim is about every interleaving", "anchors": ["src/psygnal/containers/_evented_set.py:EventedSet", "src/psygnal/containers/_evented_dict.py:EventedDict", "src/psygnal/containers/_evented_list.py:EventedList", "src/psygnal/_group_descriptor.py:evented_setattr", "src/psygnal/_evented_model.py:EventedModel.__setattr__"]}
{"id": "C100", "title": "A lock held over several operations makes them one", "statement": "If threads make all they do with an EventedDict, EventedList or EventedSet in blocks `with lock:` of any operations and look-ups, each thread deciding its next block from all that it saw, then for all interleavings: whenever nobody holds the lock, the contents and everything that happened, in order, are the same as if the blocks were made one after the other in one thread, in the order in which they got the lock; while a thread holds it, the rest is that and a part of its block; and a thread that holds the lock, if it goes on, lets it go. So pop, made in a block, returns what it deletes and raises only if the key or index is missing when it looks; setdefault never replaces a value; append puts the item at the end and tells the index it has. For a set: who finds an item in a block 'discard it if it is there' discards it and nobody else finds it, and the same for 'add it if it is missing'. Whatever every block keeps true when made alone is true whenever nobody holds the lock: what is moved from one value of a dictionary to another is not lost, the items of one extend stay together, of two items of a set between which threads switch exactly one is there. A lock around the single operations is not enough for these. A listener that does to a copy of a dictionary or list what it is told has the contents whenever nobody holds the lock, and so for a set if no symmetric_difference_update is given an item twice (if one is, the copy may differ); with no lock the copies may differ. At any time what is told of a dictionary or list as changed, removed or moved is what the copy has, and KeyError and IndexError are raised only if the copy lacks the key or index.", "quantifier": "all programs of any number of threads, all interleavings, all contents", "why_tests_cant": "the claim is about every interleaving of every program", "anchors": ["src/psygnal/containers/_evented_dict.py:EventedDict", "src/psygnal/containers/_evented_list.py:EventedList", "src/psygnal/containers/_evented_set.py:EventedSet"]}
{"id": "C101", "title": "No update of an evented attribute is lost", "statement": "If threads read and assign the listened-to attributes of an evented dataclass or EventedModel in blocks `with lock:`, as in `obj.x = f(obj.x)`, each thread deciding its next block from all that it saw, then for all interleavings: whenever nobody holds the lock, the values and everything that happened, in order, are the same as if the blocks were made one after the other in one thread; a thread that holds the lock, if it goes on, lets it go. If k updates `obj.x = f(obj.x)` were made, the attribute is what f makes of it k times, the listeners are told every update that changes it, in order, with the value before and after, and no other attribute changes. Whatever the blocks are, what the listeners of an attribute compared with == are told leads, each old value being the new value before, from its first value to the one it has; and what every block keeps true when made alone is true whenever nobody holds the lock, so that the sum of two attributes between which blocks transfer amounts stays. A lock around the assignments only is not enough.", "quantifier": "all programs of any number of threads, all interleavings, all values, functions and operators", "why_tests_cant": "the claim is about every interleaving of every program", "anchors": ["src/psygnal/_group_descriptor.py:evented_setattr", "src/psygnal/_evented_model.py:EventedModel.__setattr__"]}
