{
 "claims": [
  {
   "property": "C01",
   "status": "proved",
   "theorems": [
    "Psygnal.C01_slots_ordered",
    "Psygnal.C01_serial_is_connection_order"
   ],
   "note": "Invariant at every moment of every execution of every user program; serial is a ghost connection counter."
  },
  {
   "property": "C02",
   "status": "proved",
   "theorems": [
    "Psygnal.C02_connect_adds_one",
    "Psygnal.C02_connect_error_changes_nothing",
    "Psygnal.C02_contains",
    "Psygnal.C02_len",
    "Psygnal.C02_disconnect_removes_first",
    "Psygnal.C02_disconnect_absent",
    "Psygnal.C02_disconnect_all",
    "Psygnal.C02_discard",
    "Psygnal.C02_connect_receives"
   ],
   "note": "For every plain signal in every state; group relays are covered by C19/C22. Arguments and thread of the new callback too."
  },
  {
   "property": "C03",
   "status": "proved",
   "theorems": [
    "Psygnal.C03_unique_never_duplicates",
    "Psygnal.C03_unique_refuses",
    "Psygnal.C03_unique_accepts"
   ],
   "note": "Invariant over all executions in which every connection to s is unique."
  },
  {
   "property": "C04",
   "status": "proved",
   "theorems": [
    "Psygnal.C04_emit_delivers",
    "Psygnal.C04_exactly_once",
    "Psygnal.C04_connections_kept"
   ],
   "note": "Immediate mode, any Live emission, stated on the event log; no debug hook installed (hooks: C44); queued/latest-only delivery: C10/C11, emit_fast: C14."
  },
  {
   "property": "C05",
   "status": "proved",
   "theorems": [
    "Psygnal.C05_emitter_restored",
    "Psygnal.C05_none_at_rest",
    "Psygnal.C05_emitter_in_callback",
    "Psygnal.C05_emitter_constant_in_callback"
   ],
   "note": "Single thread of control (interleavings: C46). Callbacks run by emit_fast, which documents that it does not set the emitter, are excluded."
  },
  {
   "property": "C06",
   "status": "proved",
   "theorems": [
    "Psygnal.C06_emit_errors",
    "Psygnal.C06_fast_errors"
   ],
   "note": "Both directions, all re-emission modes, any moment of any execution; no debug hook installed."
  },
  {
   "property": "C07",
   "status": "partial",
   "theorems": [
    "Psygnal.C07_at_rest_partial",
    "Psygnal.C07_max_depth_at_rest_partial",
    "Psygnal.C07_refuted"
   ],
   "note": "Depth and re-emission queue are always back to initial; _max_recursion_depth is too unless emit_fast is used on a latest-only signal, where C07_refuted gives a witness of a stale value that silences the next emissions."
  },
  {
   "property": "C08",
   "status": "proved",
   "theorems": [
    "Psygnal.C08_depth_bounded",
    "Psygnal.C08_depth_is_nesting",
    "Psygnal.C08_terminates"
   ],
   "note": "Bound and meaning of depth at every moment of every execution; termination for all callback programs over a finite set of signals."
  },
  {
   "property": "C09",
   "status": "proved",
   "theorems": [
    "Psygnal.C09_depth_first"
   ],
   "note": "Stated as a decomposition of the event log of the outer emission around the nested one."
  },
  {
   "property": "C10",
   "status": "proved",
   "theorems": [
    "Psygnal.C10_breadth_first",
    "Psygnal.C10_nested_enqueues",
    "Psygnal.C10_queue_in_use"
   ],
   "note": "For emissions that return normally and do not change the connections of the signal."
  },
  {
   "property": "C100",
   "status": "proved",
   "theorems": [
    "Psygnal.DcC.C100_dict",
    "Psygnal.DcC.C100_dict_held",
    "Psygnal.DcC.C100_dict_free",
    "Psygnal.DcC.C100_pop",
    "Psygnal.DcC.C100_whole",
    "Psygnal.DcC.C100_pop_refuted",
    "Psygnal.DcC.C100_setdefault_refuted",
    "Psygnal.LsC.C100_list",
    "Psygnal.LsC.C100_list_held",
    "Psygnal.LsC.C100_list_free",
    "Psygnal.LsC.C100_append",
    "Psygnal.LsC.C100_list_pop",
    "Psygnal.LsC.C100_list_pop_refuted",
    "Psygnal.LsC.C100_append_refuted",
    "Psygnal.StC.C100_set",
    "Psygnal.StC.C100_set_held",
    "Psygnal.StC.C100_set_free",
    "Psygnal.StC.C100_set_take",
    "Psygnal.StC.C100_set_claim",
    "Psygnal.StC.C100_set_refuted",
    "Psygnal.DcC.C100_dict_invariant",
    "Psygnal.DcC.C100_transfer",
    "Psygnal.DcC.C100_transfer_refuted",
    "Psygnal.LsC.C100_list_invariant",
    "Psygnal.LsC.C100_extend",
    "Psygnal.LsC.C100_extend_refuted",
    "Psygnal.StC.C100_set_invariant",
    "Psygnal.StC.C100_set_switch",
    "Psygnal.StC.C100_set_switch_refuted",
    "Psygnal.DcC.C100_dict_mirror",
    "Psygnal.DcC.C100_dict_mirror_refuted",
    "Psygnal.LsC.C100_list_mirror",
    "Psygnal.LsC.C100_list_mirror_refuted",
    "Psygnal.StC.C100_set_mirror",
    "Psygnal.StC.C100_set_twice_refuted",
    "Psygnal.StC.C100_set_mirror_refuted",
    "Psygnal.DcC.C100_dict_story",
    "Psygnal.LsC.C100_list_story"
   ],
   "note": "Refinement and progress for all programs and interleavings; the theorems named _refuted show that the lock of C99, around single operations, is not enough. Sets: C100_set, C100_set_held, C100_set_free in terms of what threads see, C100_set_take and C100_set_claim for test and act. What every block keeps is true whenever the lock is free (C100_dict_invariant, C100_list_invariant, C100_set_invariant). Copies kept by listeners equal the contents whenever the lock is free; without a lock they may differ (refuted). The copy of a set: if no symmetric_difference_update gets an item twice. Each event fits the copy at its time."
  },
  {
   "property": "C101",
   "status": "proved",
   "theorems": [
    "Psygnal.AtC.C101_attr",
    "Psygnal.AtC.C101_attr_held",
    "Psygnal.AtC.C101_attr_free",
    "Psygnal.AtC.C101_update",
    "Psygnal.AtC.C101_count",
    "Psygnal.AtC.C101_count_refuted",
    "Psygnal.AtC.C101_mirror",
    "Psygnal.AtC.C101_invariant",
    "Psygnal.AtC.C101_transfer",
    "Psygnal.AtC.C101_transfer_refuted"
   ],
   "note": "Refinement and progress for all programs and interleavings; C101_count_refuted shows that the lock of C99, around single assignments, is not enough. For all programs: C101_mirror, C101_invariant; C101_transfer for transfers."
  },
  {
   "property": "C11",
   "status": "partial",
   "theorems": [
    "Psygnal.C11_no_stale_delivery",
    "Psygnal.C11_latest_delivered_partial",
    "Psygnal.C11_top_level",
    "Psygnal.C11_refuted"
   ],
   "note": "Dropping of stale values is proved in full; delivery of the latest value is false in general (C11_refuted: value emitted after a deeper nested emission has finished reaches nobody) and proved under the condition that no deeper nested emission has finished."
  },
  {
   "property": "C12",
   "status": "proved",
   "theorems": [
    "Psygnal.C12_emit_blocked",
    "Psygnal.C12_fast_blocked",
    "Psygnal.C12_silent",
    "Psygnal.C12_contexts_restore",
    "Psygnal.C12_context_exit",
    "Psygnal.C12_resume_bypasses_block"
   ],
   "note": "emit/emit_fast on a blocked signal are no-ops; silence for whole programs (with all nested callbacks); blocked() contexts restore for arbitrary nesting and exits. resume() on a blocked signal delivers (C12_resume_bypasses_block), outside the claim"
  },
  {
   "property": "C13",
   "status": "partial",
   "theorems": [
    "Psygnal.C13_emit_paused",
    "Psygnal.C13_fast_paused",
    "Psygnal.C13_silent",
    "Psygnal.C13_contexts_restore",
    "Psygnal.C13_context_exit",
    "Psygnal.C13_resume_in_order",
    "Psygnal.C13_resume_is_emitting",
    "Psygnal.C13_record_kept",
    "Psygnal.C13_resume_reduced",
    "Psygnal.C13_reducer_folds",
    "Psygnal.C13_no_callbacks",
    "Psygnal.C13_error_keeps_record_partial",
    "Psygnal.C13_error_refuted"
   ],
   "note": "all parts proved except exactly-once under exceptions, which the code violates: after a callback raises during resume() the whole record is kept and a later resume() redelivers (C13_error_refuted)"
  },
  {
   "property": "C14",
   "status": "proved",
   "theorems": [
    "Psygnal.C14_same_when_refused",
    "Psygnal.C14_refused",
    "Psygnal.C14_fast_delivers",
    "Psygnal.C14_same_callbacks",
    "Psygnal.C06_fast_errors"
   ],
   "note": "emit_fast of any re-emission mode; exception wrapping is C06_fast_errors."
  },
  {
   "property": "C15",
   "status": "proved",
   "theorems": [
    "Psygnal.C15_kill_removes_exactly",
    "Psygnal.C15_no_dead_connected",
    "Psygnal.C15_dead_never_called"
   ],
   "note": "All weakref callbacks of one dying object run as one atomic step; 'no other connection is affected' holds up to the group's internal relay slot, which is dropped when the group's last listener dies."
  },
  {
   "property": "C16",
   "status": "partial",
   "theorems": [
    "Psygnal.C16_range_correct",
    "Psygnal.C16_connect_iff",
    "Psygnal.C16_calls_bind",
    "Psygnal.buildSig_binds",
    "Psygnal.C16_partial_refuted",
    "Psygnal.C16_as_many"
   ],
   "note": "proved for all signatures that can be determined (incl. partials with acceptable bound args); violated for functools.partial with too many bound arguments, which is accepted unchecked (C16_partial_refuted) An accepted callable gets as many emitted arguments as it accepts."
  },
  {
   "property": "C17",
   "status": "proved",
   "theorems": [
    "Psygnal.C17_dispatch",
    "Psygnal.C17_fifo",
    "Psygnal.C17_fifo_rest",
    "Psygnal.C17_drain",
    "Psygnal.C17_only_from_queue",
    "Psygnal.C17_only_on_thread"
   ],
   "note": "An entry whose owner died before emit_queued takes it is consumed without invocation and raises (see C15, C18). One thread of control at a time; interleavings of threads are C51."
  },
  {
   "property": "C18",
   "status": "proved",
   "theorems": [
    "Psygnal.C18_error_loses_one",
    "Psygnal.C18_again"
   ],
   "note": "Includes the failure mode of a queued callback whose owner has died meanwhile (ReferenceError, wrapped)."
  },
  {
   "property": "C19",
   "status": "partial",
   "theorems": [
    "Psygnal.C19_relay_connected",
    "Psygnal.C19_member_emit",
    "Psygnal.C19_queued_member_emit",
    "Psygnal.C19_latest_member_emit_partial",
    "Psygnal.C19_latest_member_refuted",
    "Psygnal.C19_member_disconnect_refuted",
    "Psygnal.C19_fast_refuted",
    "Psygnal.C19_fast_attribution_refuted"
   ],
   "note": "Proved for emit of members in default and in queued mode (connections stable during the emission) after any history without member.disconnect(); in latest-only mode for emissions during which no newer value is accepted, provided no deeper emission ran before (otherwise false, witness proved). member.disconnect() and emit_fast violate the claim in the unchanged code (witnesses proved)."
  },
  {
   "property": "C20",
   "status": "partial",
   "theorems": [
    "Psygnal.C20_block_silences",
    "Psygnal.C20_context_partial",
    "Psygnal.C20_inner_context",
    "Psygnal.C20_nested_refuted",
    "Psygnal.C20_excluded_refuted",
    "Psygnal.C20_blocked_before_refuted",
    "Psygnal.C20_blocked_group_listeners"
   ],
   "note": "Silence proved; context restoration proved if the group was not blocked before and excluded members were not blocked; nested contexts, blocked excluded members and an already blocked group violate the claim (witnesses proved)."
  },
  {
   "property": "C21",
   "status": "partial",
   "theorems": [
    "Psygnal.C21_refuted",
    "Psygnal.C21_pause_ineffective",
    "Psygnal.C21_direct_partial"
   ],
   "note": "Pausing a group has no effect on emissions of its members: refuted by a witness and in general; the claim holds for emissions of the group itself."
  },
  {
   "property": "C22",
   "status": "partial",
   "theorems": [
    "Psygnal.C22_disconnect_all",
    "Psygnal.C22_disconnect",
    "Psygnal.C22_missing_ok",
    "Psygnal.C22_missing_partial",
    "Psygnal.C22_refuted"
   ],
   "note": "Removal proved; the exact error condition is proved and differs from the claim: missing_ok=False raises also when f is connected to the group but not to every member."
  },
  {
   "property": "C23",
   "status": "partial",
   "theorems": [
    "Psygnal.WC.C23_call_partial",
    "Psygnal.WC.C23_stored",
    "Psygnal.WC.C23_setattr",
    "Psygnal.WC.C23_setitem",
    "Psygnal.WC.C23_strong",
    "Psygnal.WC.C23_dead",
    "Psygnal.WC.C23_dereference",
    "Psygnal.WC.C23_example",
    "Psygnal.WC.C23_super_refuted",
    "Psygnal.WC.C23_setitem_refuted",
    "Psygnal.WC.C23_setattr_refuted",
    "Psygnal.WC.C23_curry_refuted",
    "Psygnal.WC.C23_call_builtin_refuted",
    "Psygnal.WC.C23_dead_builtin_refuted",
    "Psygnal.WC.C23_keywords"
   ],
   "note": "Same call for functions, methods, built-in methods, callable objects and nested partials of them; setattr and setitem partials with exactly the documented bound arguments. The remaining shapes (extra bound values, keywords on a curried function, super() built-ins) are refuted. Keywords of nested partials: C23_keywords."
  },
  {
   "property": "C24",
   "status": "partial",
   "theorems": [
    "Psygnal.WC.C24_partial",
    "Psygnal.WC.C24_slot_index_partial",
    "Psygnal.WC.C24_bound_ignored",
    "Psygnal.WC.C24_example",
    "Psygnal.WC.C24_method_names_refuted",
    "Psygnal.WC.C24_refuted",
    "Psygnal.WC.C24_builtin_item_refuted",
    "Psygnal.WC.C24_repr_refuted"
   ],
   "note": "Equality of stored callbacks is sameness of function, method, attribute or item; bound partial arguments are ignored for all functions (refuted), and so are item keys with equal repr and methods with equal __name__."
  },
  {
   "property": "C25",
   "status": "partial",
   "theorems": [
    "Psygnal.Pickle.C25_fields",
    "Psygnal.Pickle.C25_callbacks_partial",
    "Psygnal.Pickle.C25_use_partial",
    "Psygnal.Pickle.C25_emit_calls",
    "Psygnal.Pickle.C25_example",
    "Psygnal.Pickle.C25_priority_refuted",
    "Psygnal.Pickle.C25_priority_original",
    "Psygnal.Pickle.C25_description_refuted",
    "Psygnal.Pickle.C25_mid_emission_refuted",
    "Psygnal.Pickle.C25_queued_slot_refuted",
    "Psygnal.Pickle.C25_emit_again",
    "Psygnal.Pickle.C25_emit_again_example",
    "Psygnal.Pickle.C25_priority_empty"
   ],
   "note": "All listed fields and strong callbacks are kept and the copy behaves like the original without its weak slots, except that priorities and the description are lost (refuted), copies made during a queued emission never deliver (refuted) and slots with a thread are dropped (refuted). Repeated emissions of an idle copy, with callbacks that raise: C25_emit_again."
  },
  {
   "property": "C26",
   "status": "partial",
   "theorems": [
    "Psygnal.Inst.C26_partial",
    "Psygnal.Inst.C26_instance_partial",
    "Psygnal.Inst.C26_cache_partial",
    "Psygnal.Inst.C26_collect_partial",
    "Psygnal.Inst.C26_logged",
    "Psygnal.Inst.C26_name_refuted",
    "Psygnal.Inst.C26_copy_refuted"
   ],
   "note": "For all histories with address reuse, copies of objects not yet accessed included. False, with witnesses, for signals with an explicit name and for copy.copy of an object after an access."
  },
  {
   "property": "C27",
   "status": "partial",
   "theorems": [
    "Psygnal.EL.C27_run_partial",
    "Psygnal.EL.C27_del_refuted",
    "Psygnal.EL.C27_nested_refuted",
    "Psygnal.EL.C27_key_refuted",
    "Psygnal.Py.C27_ref_forward",
    "Psygnal.Py.C27_ref_backward",
    "Psygnal.Py.C27_ref_zero",
    "Psygnal.Py.C27_ref_index",
    "Psygnal.Py.C27_ref_index_error",
    "Psygnal.Py.C27_ref_insert",
    "Psygnal.Py.C27_ref_get_slice",
    "Psygnal.Py.C27_ref_set_slice",
    "Psygnal.Py.C27_ref_set_extended",
    "Psygnal.Py.C27_ref_del_slice",
    "Psygnal.Py.C27_ref_example"
   ],
   "note": "Equal to a built-in list for all lists, operation sequences, indices and slices when listeners do not raise; missing (and refuted): built-in lists as elements, del with -2n <= i < -n, del/pop with non-int keys The C27_ref theorems compare the built-in list of the reference with what Python documents about indices and slices."
  },
  {
   "property": "C28",
   "status": "proved",
   "theorems": [
    "Psygnal.EL.C28_observer",
    "Psygnal.EL.C28_inserted",
    "Psygnal.EL.C28_removed",
    "Psygnal.EL.C28_moved"
   ],
   "note": "Also for operations that fail and listeners that raise at any event"
  },
  {
   "property": "C29",
   "status": "partial",
   "theorems": [
    "Psygnal.EL.C29_perm",
    "Psygnal.EL.C29_move_partial",
    "Psygnal.EL.C29_move_refuted",
    "Psygnal.EL.C29_move_multiple_partial",
    "Psygnal.EL.C29_move_multiple_descending_partial",
    "Psygnal.EL.C29_move_multiple_slice_partial",
    "Psygnal.EL.C29_side",
    "Psygnal.EL.C29_move_multiple_refuted"
   ],
   "note": "move for every src counted from the front; move_multiple for descending sources and for ascending sources on one side of the destination (or with room); refuted for negative src and for mixed sources; permutation in all cases"
  },
  {
   "property": "C30",
   "status": "partial",
   "theorems": [
    "Psygnal.ED.C30_run_partial",
    "Psygnal.ED.C30_keys_distinct",
    "Psygnal.ED.C30_rejects",
    "Psygnal.ED.C30_observer",
    "Psygnal.ED.C30_announced",
    "Psygnal.ED.C30_popitem_refuted",
    "Psygnal.ED.C30_reversed_refuted",
    "Psygnal.ED.C30_reference_partial"
   ],
   "note": "Same results, errors, items and order as a built-in dict for all operation sequences except popitem (removes the first instead of the last item: refuted) and reversed (unsupported: refuted); events replayed and announced for all operations and all (raising) listeners Also against an independent description of dicts (a function of the keys and the order of insertion)."
  },
  {
   "property": "C31",
   "status": "partial",
   "theorems": [
    "Psygnal.ES.C31_set_partial",
    "Psygnal.ES.C31_event_partial",
    "Psygnal.ES.C31_observer",
    "Psygnal.ES.C31_elements",
    "Psygnal.ES.C31_repeated_refuted",
    "Psygnal.ES.C31_self_refuted",
    "Psygnal.ES.C31_no_argument_refuted",
    "Psygnal.ES.C31_in_place_refuted",
    "Psygnal.ES.C31_stale_refuted"
   ],
   "note": "Proved for every history and every operation except: symmetric_difference_update with repeated elements, (symmetric_)difference_update with the set itself, intersection(_update) without arguments (all refuted), and, for the single event, the in-place operators (refuted). Elements agree whatever listeners raise."
  },
  {
   "property": "C32",
   "status": "partial",
   "theorems": [
    "Psygnal.ES.C32_order",
    "Psygnal.ES.C32_pop",
    "Psygnal.ES.C32_algebra_partial",
    "Psygnal.ES.C32_algebra_order",
    "Psygnal.ES.C32_self_refuted"
   ],
   "note": "Order proved for every history without exception; set algebra proved except for the corner cases refuted under C31."
  },
  {
   "property": "C33",
   "status": "partial",
   "theorems": [
    "Psygnal.Sel.C33_active_partial",
    "Psygnal.Sel.C33_events_partial",
    "Psygnal.Sel.C33_set_active",
    "Psygnal.Sel.C33_list_partial",
    "Psygnal.Sel.C33_depth",
    "Psygnal.Sel.C33_example",
    "Psygnal.Sel.C33_example_fine",
    "Psygnal.Sel.C33_refuted",
    "Psygnal.Sel.C33_raise_refuted",
    "Psygnal.Sel.C33_spurious_events"
   ],
   "note": "Every history on a selection and on a list with a selection, with listeners that do not raise; refuted for active = x with x outside the parent while nothing is selected, and for raising listeners. Event part: the events lead from the first state to the present one; spurious active events exist (C33_spurious_events)."
  },
  {
   "property": "C34",
   "status": "partial",
   "theorems": [
    "Psygnal.Sel.C34_partial",
    "Psygnal.Sel.C34_example",
    "Psygnal.Sel.C34_refuted",
    "Psygnal.Sel.C34_slice_refuted",
    "Psygnal.Sel.C34_current_stale"
   ],
   "note": "Every history of list and selection operations, any raising selection listeners, except item and slice assignment, for which it is refuted."
  },
  {
   "property": "C35",
   "status": "partial",
   "theorems": [
    "Psygnal.EL.C35_attached_partial",
    "Psygnal.EL.C35_removed_partial",
    "Psygnal.EL.C35_reemitted_partial",
    "Psygnal.EL.C35_setitem_refuted",
    "Psygnal.EL.C35_raise_refuted"
   ],
   "note": "All operation sequences except item/slice assignment (refuted: assignment neither connects nor disconnects), listeners that do not raise (refuted otherwise)"
  },
  {
   "property": "C36",
   "status": "partial",
   "theorems": [
    "Psygnal.Thr.C36_partial",
    "Psygnal.Thr.step_is_schedule",
    "Psygnal.Thr.run_is_schedule",
    "Psygnal.Thr.C36_raise_refuted",
    "Psygnal.Thr.C36_threads_refuted",
    "Psygnal.Thr.C36_reentrant_refuted"
   ],
   "note": "All histories with methods and timer callbacks as a whole and late timers, for functions that return. False, with witnesses, for raising and re-entrant functions and for concurrent callers."
  },
  {
   "property": "C37",
   "status": "partial",
   "theorems": [
    "Psygnal.Thr.C37_partial",
    "Psygnal.Thr.run_is_schedule",
    "Psygnal.Thr.C37_startup_refuted",
    "Psygnal.Thr.C37_cancel_refuted",
    "Psygnal.Thr.C37_race_refuted",
    "Psygnal.Thr.C37_debouncer_race_refuted",
    "Psygnal.Thr.C37_torn_refuted"
   ],
   "note": "Both classes and policies, histories with cancel and flush, raising functions; methods as a whole. Calls are lost right after construction, right after cancel (throttler) and in races with the timer thread (witnesses)."
  },
  {
   "property": "C38",
   "status": "partial",
   "theorems": [
    "Psygnal.Thr.C38_quiet_partial",
    "Psygnal.Thr.C38_last_args_partial",
    "Psygnal.Thr.C38_cancel_partial",
    "Psygnal.Thr.C38_flush_partial",
    "Psygnal.Thr.run_is_schedule",
    "Psygnal.Thr.C38_race_refuted"
   ],
   "note": "Complete when methods and timer callbacks run as a whole; false in a race between a call and the timer thread (witness)."
  },
  {
   "property": "C39",
   "status": "proved",
   "theorems": [
    "Psygnal.DC.C39_value",
    "Psygnal.DC.C39_silent",
    "Psygnal.DC.C39_event",
    "Psygnal.DC.C39_new",
    "Psygnal.DC.C39_fallback",
    "Psygnal.DC.C39_plain"
   ],
   "note": "For any original __setattr__ and any operators, also raising ones; listeners may raise but do not assign attributes themselves; the old value of a missing attribute is the sentinel."
  },
  {
   "property": "C40",
   "status": "partial",
   "theorems": [
    "Psygnal.EM.C40_partial",
    "Psygnal.EM.C40_run_partial",
    "Psygnal.EM.C40_once",
    "Psygnal.EM.C40_plain_partial",
    "Psygnal.EM.C40_depth",
    "Psygnal.EM.C40_class_partial",
    "Psygnal.EM.C40_class_deps",
    "Psygnal.EM.C40_abandoned_refuted",
    "Psygnal.EM.C40_getter_refuted",
    "Psygnal.EM.C40_conflict_refuted",
    "Psygnal.EM.C40_raw_refuted",
    "Psygnal.EM.C40_subclass_refuted",
    "Psygnal.EM.C40_unread"
   ],
   "note": "For all setters and callbacks, of any nesting, if getters do not raise, no listener raises and dependencies are declared; other cases are refuted by witnesses. Listeners are fixed during the assignment; validation changes only the assigned field. C40_unread: a changed field reports a dependent property iff its value differs from the one before, also if it could not be read before (getters may raise)."
  },
  {
   "property": "C41",
   "status": "partial",
   "theorems": [
    "Psygnal.DC.C41_signals",
    "Psygnal.DC.C41_field",
    "Psygnal.DC.C41_reserved",
    "Psygnal.DC.C41_emits_partial",
    "Psygnal.DC.C41_operators",
    "Psygnal.DC.C41_inherited_refuted",
    "Psygnal.DC.C41_other_attribute"
   ],
   "note": "Names of signals and lookup for all field lists and alias arguments; emission on the documented signal only for classes patched for their own group, false for classes that inherit a patched __setattr__ without aliases."
  },
  {
   "property": "C42",
   "status": "partial",
   "theorems": [
    "Psygnal.DC.C42_partial",
    "Psygnal.DC.C42_eq",
    "Psygnal.DC.C42_missing",
    "Psygnal.DC.C42_settles",
    "Psygnal.DC.C42_sticky_refuted",
    "Psygnal.DC.C42_hasattr_refuted"
   ],
   "note": "Never raises and uses the first working operator, provided hasattr(x, '__array__') does not raise; agreement with == fails after one failed comparison of the field (refuted)."
  },
  {
   "property": "C43",
   "status": "partial",
   "theorems": [
    "Psygnal.Proxy.C43_partial",
    "Psygnal.Proxy.C43_run_partial",
    "Psygnal.Proxy.C43_listeners",
    "Psygnal.Proxy.C43_new_item_refuted",
    "Psygnal.Proxy.C43_getter_refuted",
    "Psygnal.Proxy.C43_own_name_refuted",
    "Psygnal.Proxy.C43_in_place_refuted"
   ],
   "note": "For any wrapped object whose reads have no side effects; new items, attributes with raising getters and names of the proxy class behave differently (refuted)."
  },
  {
   "property": "C44",
   "status": "partial",
   "theorems": [
    "Psygnal.Mon.C44_partial",
    "Psygnal.Mon.C44_callbacks_partial",
    "Psygnal.Mon.C44_hook",
    "Psygnal.Mon.C44_quiet",
    "Psygnal.Mon.C44_reachable",
    "Psygnal.Mon.C44_entry_refuted",
    "Psygnal.Mon.C44_group_refuted",
    "Psygnal.Mon.C44_position_refuted",
    "Psygnal.Mon.C44_interleaved_refuted",
    "Psygnal.Mon.C44_exceptions"
   ],
   "note": "Hook restored and connections as without monitors (callbacks in order, relays as a set) for all bodies, nestings, exits. Missing: entry that raises half-way, bodies that clear a member of a group, position of relays: refuted. Monitors neither swallow nor make up exceptions (C44_exceptions)."
  },
  {
   "property": "C45",
   "status": "proved",
   "theorems": [
    "Psygnal.Conc.C45",
    "Psygnal.Conc.C45_exclusion",
    "Psygnal.Conc.C45_own_queue",
    "Psygnal.Conc.C45_alone"
   ],
   "note": "Interleaving model of emit/_run_emit_loop with the RLock, any number of threads, signals and callbacks; any schedule. Connections may change at any time; emit_fast, which takes no lock, is not an operation of the model. C45_alone: a thread that runs alone acts as the sequential model (Core) says, for code that emits, asks for the current emitter and raises: same end, same calls in the same order, same queues and emitter, no lock kept."
  },
  {
   "property": "C46",
   "status": "partial",
   "theorems": [
    "Psygnal.Conc.C46_partial",
    "Psygnal.Conc.C46_one_signal",
    "Psygnal.Conc.C46_one_thread",
    "Psygnal.Conc.C46_refuted",
    "Psygnal.Conc.C46_leak_refuted"
   ],
   "note": "False in general: _current_emitter is one class attribute for all threads; witnesses of a wrong emitter and of one left set for good. Proved when no two threads are in emissions at the same time, when all threads' own emissions are of one signal, and with one emitting thread."
  },
  {
   "property": "C47",
   "status": "proved",
   "theorems": [
    "Psygnal.Conc.C47",
    "Psygnal.Conc.C47_cyclic",
    "Psygnal.Conc.C47_group_disconnect"
   ],
   "note": "Any schedule, any number of threads and signals: if code run under a lock only takes locks of higher rank, some thread can always step. C47_cyclic: the deadlock without the order. C47_group_disconnect: group disconnection takes locks against the order."
  },
  {
   "property": "C48",
   "status": "partial",
   "theorems": [
    "Psygnal.Res.C48_partial",
    "Psygnal.Res.C48_exact",
    "Psygnal.Res.C48_single",
    "Psygnal.Res.C48_refuted",
    "Psygnal.Res.C48_reducer_refuted",
    "Psygnal.Res.C48_nested_refuted",
    "Psygnal.Res.C48_unpaused"
   ],
   "note": "False in general: an append between the end of the iteration and clear() is lost (witness), with a reducer even in one thread (witness). Proved for all schedules when no such append happens; exactly once when resumes do not overlap and nothing raises; unconditionally in one thread whose callbacks do not pause. Nothing is ever recorded when nobody pauses."
  },
  {
   "property": "C49",
   "status": "partial",
   "theorems": [
    "Psygnal.C49_partial",
    "Psygnal.C49_at_least_once",
    "Psygnal.C49_at_most_once",
    "Psygnal.C49_queued",
    "Psygnal.C49_latest_at_most_once",
    "Psygnal.C49_fast",
    "Psygnal.C49_conditions",
    "Psygnal.C49_only_connected",
    "Psygnal.C49_skip_refuted",
    "Psygnal.C49_twice_refuted",
    "Psygnal.C49_endless"
   ],
   "note": "emit in immediate mode, emit_fast, each round of an emission in queued mode: exactly once if the part of the list already served stays as it is; connect-only: at least once; disconnect-only: at most once (also in latest-only mode). False in general: a callback that disconnects itself makes the loop skip the next one, one that connects another with a higher priority is called twice."
  },
  {
   "property": "C50",
   "status": "partial",
   "theorems": [
    "Psygnal.C50_partial",
    "Psygnal.C50_answers",
    "Psygnal.C50_map_live",
    "Psygnal.C50_collectable",
    "Psygnal.C50_leak",
    "Psygnal.C50_two_descriptors_refuted",
    "Psygnal.C50_copy_refuted",
    "Psygnal.C50_class_address_refuted"
   ],
   "note": "Holds if each object is read through one descriptor, no class with __eq_operators__ is collected, and no object with a cached group is copied; each condition is needed (refutations). The statements about the map hold in every history."
  },
  {
   "property": "C51",
   "status": "partial",
   "theorems": [
    "Psygnal.QC.C51_partial",
    "Psygnal.QC.C51_drained",
    "Psygnal.QC.C51_ready",
    "Psygnal.QC.C51_distinct",
    "Psygnal.QC.C51_invoked",
    "Psygnal.QC.C51_home",
    "Psygnal.QC.C51_first_use_refuted",
    "Psygnal.QC.C51_elsewhere_refuted",
    "Psygnal.QC.C51_wait_refuted"
   ],
   "note": "Exactly once and in order, for all schedules in which no two threads create the queue at the same time (always, once it exists); on the right thread and without waiting if emit_queued is called for the own thread only. Otherwise refuted: lost at first use, run elsewhere, waiting for good."
  },
  {
   "property": "C52",
   "status": "partial",
   "theorems": [
    "Psygnal.Conc.C52_partial",
    "Psygnal.Conc.C52_depth",
    "Psygnal.Conc.C52_below",
    "Psygnal.Conc.C52_bound",
    "Psygnal.Conc.C52_rest",
    "Psygnal.Conc.C52_elsewhere_refuted"
   ],
   "note": "The state at rest, the bound and the meaning of the counter are proved for all schedules; a RecursionError shows that some thread is nested to the limit (the emitting one if it holds the lock). That it is always the emitting one is refuted: the limit is checked before the lock is acquired."
  },
  {
   "property": "C53",
   "status": "partial",
   "theorems": [
    "Psygnal.FC.C53_calls",
    "Psygnal.FC.C53_prefix",
    "Psygnal.FC.C53_partial",
    "Psygnal.FC.C53_stuck",
    "Psygnal.FC.C53_leak_refuted",
    "Psygnal.FC.C53_negative_refuted",
    "Psygnal.FC.C53_latest_refuted",
    "Psygnal.FC.C53_locked",
    "Psygnal.FC.C53_alone",
    "Psygnal.FC.C53_locks"
   ],
   "note": "The calls are proved for all schedules. The counter is proved right if emissions of the signal in different threads do not overlap; in general it is refuted: lost decrements accumulate until every emission raises. C53_locked: for a signal emitted only with emit, the counter is right under every schedule. C53_alone: a thread that runs alone acts as the sequential model (Core) says: same end, same calls in the same order, same counters, no lock kept. C53_locks: under every schedule no lock is held when the threads that have run have ended."
  },
  {
   "property": "C54",
   "status": "partial",
   "theorems": [
    "Psygnal.GC.C54_signals",
    "Psygnal.GC.C54_partial",
    "Psygnal.GC.C54_attr",
    "Psygnal.GC.C54_stays",
    "Psygnal.GC.C54_reserved",
    "Psygnal.GC.C54_creates",
    "Psygnal.GC.C54_subclass_refuted",
    "Psygnal.GC.C54_mixin_refuted",
    "Psygnal.GC.C54_unveiled_refuted",
    "Psygnal.GC.C54_two_bases_refuted",
    "Psygnal.GC.C54_named_refuted",
    "Psygnal.GC.C54_two_names_refuted",
    "Psygnal.GC.C54_override_refuted",
    "Psygnal.GC.C54_views",
    "Psygnal.GC.C54_uniform",
    "Psygnal.GC.C54_views_example"
   ],
   "note": "What a class collects for every hierarchy; group[name] and group.name for programs in which each Signal has one name; reserved names and class creation if all bases are groups. Refuted in general (mixins with reserved names, psygnal-prefixed names, two group bases, Signal(name=...), one Signal under two names, overriding attributes)."
  },
  {
   "property": "C55",
   "status": "proved",
   "theorems": [
    "Psygnal.Conc.C55",
    "Psygnal.Conc.C55_order",
    "Psygnal.Conc.C55_once",
    "Psygnal.Conc.C55_threads"
   ],
   "note": "queued mode, connections of the signal constant; exceptions only in C55_once; emit, not emit_fast"
  },
  {
   "property": "C56",
   "status": "partial",
   "theorems": [
    "Psygnal.Bind.C56_partial",
    "Psygnal.Bind.C56_sync",
    "Psygnal.Bind.C56_bound",
    "Psygnal.Bind.C56_follows",
    "Psygnal.Bind.C56_nan_refuted",
    "Psygnal.Bind.C56_maxargs_refuted",
    "Psygnal.Bind.C56_listening",
    "Psygnal.Bind.C56_raises_refuted",
    "Psygnal.Bind.C56_order",
    "Psygnal.Bind.C56_calls_order"
   ],
   "note": "Exact effect, calls of the other callbacks, termination and agreement for all graphs of bindings with maxargs=1, values equal to themselves and callbacks that return; histories with connections, disconnections and objects that die. Otherwise refuted: RecursionError, or a callback that raises keeps bound attributes from being set. Other callbacks do not assign fields themselves (see C69). Slots stay in the order of connection, and callbacks are called in that order."
  },
  {
   "property": "C57",
   "status": "partial",
   "theorems": [
    "Psygnal.GrC.C57_link",
    "Psygnal.GrC.C57_partial",
    "Psygnal.GrC.C57_off",
    "Psygnal.GrC.C57_off_all",
    "Psygnal.GrC.C57_single",
    "Psygnal.GrC.C57_single_called",
    "Psygnal.GrC.C57_lost_refuted",
    "Psygnal.GrC.C57_wrong_refuted",
    "Psygnal.GrC.C57_silent_refuted"
   ],
   "note": "Proved for all schedules: the link between group and members (any code), no calls after disconnect (any code), calls unless the relay finds no emitter (callbacks that connect nothing), everything with one emitting thread. Refuted for several emitting threads (shared current emitter) and for dying listeners."
  },
  {
   "property": "C58",
   "status": "partial",
   "theorems": [
    "Psygnal.C58_succeeds",
    "Psygnal.C58_fields",
    "Psygnal.C58_events",
    "Psygnal.C58_seen",
    "Psygnal.C58_stops",
    "Psygnal.C58_model",
    "Psygnal.C58_copy",
    "Psygnal.C58_quiet",
    "Psygnal.C58_eq",
    "Psygnal.C58_eq_fields",
    "Psygnal.C58_reset_succeeds",
    "Psygnal.C58_reset_fields",
    "Psygnal.C58_reset_events",
    "Psygnal.C58_reset_partial",
    "Psygnal.C58_atomic_refuted",
    "Psygnal.C58_together_refuted",
    "Psygnal.C58_dict_refuted",
    "Psygnal.C58_none_refuted",
    "Psygnal.C58_symm_refuted",
    "Psygnal.C58_defaults_refuted",
    "Psygnal.C58_reset_fails_refuted",
    "Psygnal.C58_assignable"
   ],
   "note": "update, its events and exceptions, a.update(b) and == for models of the same structure: as stated. reset restores what a new model has only where defaults are plain values and nested default models are as their class makes them (Val.plain); otherwise refuted. Not modelled: properties, validation, shared objects."
  },
  {
   "property": "C59",
   "status": "partial",
   "theorems": [
    "Psygnal.MCls.C59_creation",
    "Psygnal.MCls.C59_signals_partial",
    "Psygnal.MCls.C59_setters",
    "Psygnal.MCls.C59_evented",
    "Psygnal.MCls.C59_allow",
    "Psygnal.MCls.C59_setter_partial",
    "Psygnal.MCls.C59_dependents",
    "Psygnal.MCls.C59_signals_of_dependents_partial",
    "Psygnal.MCls.C59_inherited_refuted",
    "Psygnal.MCls.C59_frozen_refuted",
    "Psygnal.MCls.C59_setter_refuted",
    "Psygnal.MCls.C59_guess_refuted",
    "Psygnal.MCls.C59_inherited_silent"
   ],
   "note": "Inherited settable properties have no signal and the setter of an attribute found in the MRO is not always called; refuted with witnesses, the rest proved for all sequences of class statements. Assigning an inherited property only runs its setter."
  },
  {
   "property": "C60",
   "status": "partial",
   "theorems": [
    "Psygnal.TC.C60_connect",
    "Psygnal.TC.C60_emit",
    "Psygnal.TC.C60_blocked",
    "Psygnal.TC.C60_calls",
    "Psygnal.TC.C60_typed_partial",
    "Psygnal.TC.C60_same",
    "Psygnal.TC.C60_narrow_refuted",
    "Psygnal.TC.C60_union_refuted",
    "Psygnal.TC.C60_varargs_refuted",
    "Psygnal.TC.C60_empty_refuted",
    "Psygnal.TC.C60_blocked_run",
    "Psygnal.TC.C60_paused_run"
   ],
   "note": "check_types compares annotations the wrong way round, so callbacks may get values they are not annotated for: refuted with witnesses; exact conditions and what callbacks get proved for all programs."
  },
  {
   "property": "C61",
   "status": "partial",
   "theorems": [
    "Psygnal.Pat.C61_truth",
    "Psygnal.Pat.C61_connected",
    "Psygnal.Pat.C61_reported",
    "Psygnal.Pat.C61_once_partial",
    "Psygnal.Pat.C61_transparent_partial",
    "Psygnal.Pat.C61_others",
    "Psygnal.Pat.C61_twice_refuted",
    "Psygnal.Pat.C61_mixin_refuted",
    "Psygnal.Pat.C61_hidden_refuted",
    "Psygnal.Pat.C61_second_refuted"
   ],
   "note": "Truthfulness and delivery for all programs; exactly once and transparency under the stated conditions on the hierarchy, refuted in general."
  },
  {
   "property": "C62",
   "status": "partial",
   "theorems": [
    "Psygnal.Sha.C62_truth",
    "Psygnal.Sha.C62_documented_partial",
    "Psygnal.Sha.C62_signals_partial",
    "Psygnal.Sha.C62_effect",
    "Psygnal.Sha.C62_statement",
    "Psygnal.Sha.C62_leak_refuted",
    "Psygnal.Sha.C62_last_refuted",
    "Psygnal.Sha.C62_inherit_refuted",
    "Psygnal.Sha.C62_flag_refuted"
   ],
   "note": "Truth of events, class statements and what changes a group class: all programs. Documented aliases: when no group class is shared with a non-collecting descriptor that has aliases; in general the code violates it (refuted with witnesses)."
  },
  {
   "property": "C63",
   "status": "partial",
   "theorems": [
    "Psygnal.Qtt.C63_thread",
    "Psygnal.Qtt.C63_order",
    "Psygnal.Qtt.C63_complete",
    "Psygnal.Qtt.C63_delivery",
    "Psygnal.Qtt.C63_self",
    "Psygnal.Qtt.C63_timers_partial",
    "Psygnal.Qtt.C63_calls_partial",
    "Psygnal.Qtt.C63_silent_partial",
    "Psygnal.Qtt.C63_other_refuted",
    "Psygnal.Qtt.C63_taken_refuted",
    "Psygnal.Qtt.C63_stopped_refuted"
   ],
   "note": "Threads, order, completeness, delivery, who delivers: all schedules. Starting and stopping: when each thread handles its own timer only; with thread=other the code violates it (refuted)."
  },
  {
   "property": "C64",
   "status": "partial",
   "theorems": [
    "Psygnal.EL.C64_list_partial",
    "Psygnal.EL.C64_list_reverse_partial",
    "Psygnal.ED.C64_dict",
    "Psygnal.EL.C64_late_refuted",
    "Psygnal.EL.C64_reverse_refuted",
    "Psygnal.EL.C64_children_refuted",
    "Psygnal.EL.C64_clear_refuted",
    "Psygnal.ED.C64_dict_late_refuted",
    "Psygnal.ED.C64_dict_value_refuted",
    "Psygnal.ED.C64_dict_clear_refuted"
   ],
   "note": "Holds for dicts without restriction, and for lists if listeners do not call reverse(), or nobody calls move_multiple. False for listeners that reverse the list during move_multiple, and for observers connected after such listeners (refuted)."
  },
  {
   "property": "C65",
   "status": "partial",
   "theorems": [
    "Psygnal.ES.C65_observer_partial",
    "Psygnal.ES.C65_events_partial",
    "Psygnal.ES.C65_bulk_refuted",
    "Psygnal.ES.C65_raise_refuted",
    "Psygnal.ES.C65_lag_refuted"
   ],
   "note": "Proved for operations that no listener makes fail, with bulk methods used only by listeners or only outside of them; both conditions are shown to be needed by refutations."
  },
  {
   "property": "C66",
   "status": "partial",
   "theorems": [
    "Psygnal.EL.C66_list_partial",
    "Psygnal.EL.C66_move_multiple",
    "Psygnal.EL.C66_del_refuted",
    "Psygnal.EL.C66_move_refuted",
    "Psygnal.ED.C66_dict_partial",
    "Psygnal.ED.C66_reject_refuted"
   ],
   "note": "Exact events of every operation that succeeds, and none if it raises, for operations at existing positions and with accepted values; both restrictions are needed (refutations)."
  },
  {
   "property": "C67",
   "status": "partial",
   "theorems": [
    "Psygnal.Msg.C67_raised_partial",
    "Psygnal.Msg.C67_others_partial",
    "Psygnal.Msg.C67_locations",
    "Psygnal.Msg.C67_locals",
    "Psygnal.Msg.C67_nested_partial",
    "Psygnal.Msg.C67_note_partial",
    "Psygnal.Msg.C67_str_refuted",
    "Psygnal.Msg.C67_owner_refuted",
    "Psygnal.Msg.C67_note_refuted",
    "Psygnal.Msg.C67_args_refuted"
   ],
   "note": "The error, its cause and heading, locations, local variables, nesting and the note on queued emissions, in surroundings whose str, truth value and argument repr do not raise and when no value waits behind the failing one; without these the statement is refuted."
  },
  {
   "property": "C68",
   "status": "partial",
   "theorems": [
    "Psygnal.Flds.C68_fields_partial",
    "Psygnal.Flds.C68_struct_partial",
    "Psygnal.Flds.C68_none",
    "Psygnal.Flds.C68_signals",
    "Psygnal.Flds.C68_evented_partial",
    "Psygnal.Flds.C68_isEvented",
    "Psygnal.Flds.C68_namespace_partial",
    "Psygnal.Flds.C68_mixed_refuted",
    "Psygnal.Flds.C68_struct_refuted",
    "Psygnal.Flds.C68_frozen_refuted",
    "Psygnal.Flds.C68_reserved_refuted",
    "Psygnal.Flds.C68_namespace_refuted"
   ],
   "note": "holds for chains of classes made by one library, without the types of inherited msgspec fields; mixed libraries, frozen classes, reserved inherited names and shadowed namespaces are refuted"
  },
  {
   "property": "C69",
   "status": "partial",
   "theorems": [
    "Psygnal.DCN.C69_first_partial",
    "Psygnal.DCN.C69_all_partial",
    "Psygnal.DCN.C69_order_partial",
    "Psygnal.DCN.C69_quiet",
    "Psygnal.DCN.C69_derived",
    "Psygnal.DCN.C69_late_refuted",
    "Psygnal.DCN.C69_limit_refuted",
    "Psygnal.DCN.C69_raise_refuted",
    "Psygnal.DCN.C69_refused"
   ],
   "note": "proved for the listener connected first, as a multiset for all listeners, in order if no field is assigned by its own listeners (always, if listeners only assign fields further up); later listeners, the recursion limit and raising listeners are refuted C69_refused: an assignment that the setter refuses raises, changes nothing and tells nobody."
  },
  {
   "property": "C70",
   "status": "partial",
   "theorems": [
    "Psygnal.SelN.C70_active_partial",
    "Psygnal.SelN.C70_each_partial",
    "Psygnal.SelN.C70_members",
    "Psygnal.SelN.C70_current_partial",
    "Psygnal.SelN.C70_quiet",
    "Psygnal.SelN.C70_current_refuted",
    "Psygnal.SelN.C70_clear_refuted",
    "Psygnal.SelN.C70_only_refuted",
    "Psygnal.SelN.C70_twice_refuted"
   ],
   "note": "active is right at the end and whenever an operation returns, for all listeners that do not raise; active is current without clear() and assignments to active; the rest of the claim is refuted by witnesses (DESIGN 51)"
  },
  {
   "property": "C71",
   "status": "partial",
   "theorems": [
    "Psygnal.Lazy.C71_found",
    "Psygnal.Lazy.C71_later_partial",
    "Psygnal.Lazy.C71_first_partial",
    "Psygnal.Lazy.C71_signal_refuted",
    "Psygnal.Lazy.C71_proxy_refuted",
    "Psygnal.Lazy.C71_group_refuted"
   ],
   "note": "All accesses return an object made for the attribute; they agree once the accesses overlapping the first have ended, and always if the first has ended before others begin; otherwise refuted by witnesses (DESIGN 52)"
  },
  {
   "property": "C72",
   "status": "partial",
   "theorems": [
    "Psygnal.Decomp.C72_roundtrip_partial",
    "Psygnal.Decomp.C72_back_partial",
    "Psygnal.Decomp.C72_none",
    "Psygnal.Decomp.C72_names_partial",
    "Psygnal.Decomp.C72_overwritten_refuted",
    "Psygnal.Decomp.C72_bare_refuted"
   ],
   "note": "Round trips without left-over files of the other kind; refuted with left-over files and for names that are only an extension."
  },
  {
   "property": "C73",
   "status": "partial",
   "theorems": [
    "Psygnal.Temp.C73_enums",
    "Psygnal.Temp.C73_attr",
    "Psygnal.Temp.C73_reads",
    "Psygnal.Temp.C73_scoped_partial",
    "Psygnal.Temp.C73_inherited_partial",
    "Psygnal.Temp.C73_nested_refuted",
    "Psygnal.Temp.C73_other_refuted",
    "Psygnal.Temp.C73_removed_refuted",
    "Psygnal.Temp.C73_inherited_refuted",
    "Psygnal.Temp.C73_leak_refuted"
   ],
   "note": "All programs with pydantic 2 except class creations inside nested uses of no_class_attributes; one use with pydantic 1. The rest is refuted."
  },
  {
   "property": "C74",
   "status": "partial",
   "theorems": [
    "Psygnal.EvCopy.C74_unstored",
    "Psygnal.EvCopy.C74_deep_partial",
    "Psygnal.EvCopy.C74_unused_partial",
    "Psygnal.EvCopy.C74_values",
    "Psygnal.EvCopy.C74_shallow_refuted",
    "Psygnal.EvCopy.C74_bound_refuted"
   ],
   "note": "All programs when groups are not kept on the object; with kept groups, shallow copies only before the events are used, and the bound object only without copies after use. The rest is refuted."
  },
  {
   "property": "C75",
   "status": "partial",
   "theorems": [
    "Psygnal.Direct.C75_strict",
    "Psygnal.Direct.C75_undo",
    "Psygnal.Direct.C75_calls",
    "Psygnal.Direct.C75_all_or_none_partial",
    "Psygnal.Direct.C75_half_refuted",
    "Psygnal.Direct.C75_lookalike_refuted",
    "Psygnal.Direct.C75_defaults_refuted",
    "Psygnal.Direct.C75_subclass_refuted",
    "Psygnal.Direct.C75_connected_refuted",
    "Psygnal.Direct.C75_unique"
   ],
   "note": "Strictness, calls and undoing proved for all programs (callback not connected before); all-or-none proved for uniform groups with explicit checks; the unchanged code violates the rest (witnesses proved). unique=True / unique='raise': C75_unique."
  },
  {
   "property": "C76",
   "status": "partial",
   "theorems": [
    "Psygnal.QtSlot.C76_partial",
    "Psygnal.QtSlot.C76_ordinary",
    "Psygnal.QtSlot.C76_ref_partial",
    "Psygnal.QtSlot.C76_comma_refuted",
    "Psygnal.QtSlot.C76_bracket_refuted",
    "Psygnal.QtSlot.C76_255_refuted",
    "Psygnal.QtSlot.C76_probe_refuted",
    "Psygnal.QtSlot.C76_ref_refuted"
   ],
   "note": "Counts for all Qt signals whose type names have no comma, closing bracket or blank; no calls for callables that do not look like Qt; on_ref_error only where the argument count is not looked at. The rest is refuted."
  },
  {
   "property": "C77",
   "status": "partial",
   "theorems": [
    "Psygnal.ThS.C77_once_partial",
    "Psygnal.ThS.C77_quiet_partial",
    "Psygnal.ThS.C77_args_partial",
    "Psygnal.ThS.C77_last_partial",
    "Psygnal.ThS.C77_calls_partial",
    "Psygnal.ThS.C77_safe",
    "Psygnal.ThS.C77_forgotten_refuted",
    "Psygnal.ThS.C77_collected_refuted"
   ],
   "note": "Every clause for all histories while the program has a reference, or if throttlers cannot be weakly referenced; refuted otherwise: the connection of the docstrings vanishes at once. Limits of C36-C38 (functions that raise or call their own throttler, threads, the first timer) apply."
  },
  {
   "property": "C78",
   "status": "partial",
   "theorems": [
    "Psygnal.Sel.C78_next_partial",
    "Psygnal.Sel.C78_next_none",
    "Psygnal.Sel.C78_next_empty",
    "Psygnal.Sel.C78_next_stale",
    "Psygnal.Sel.C78_cycle",
    "Psygnal.Sel.C78_all",
    "Psygnal.Sel.C78_deselect",
    "Psygnal.Sel.C78_remove_selected",
    "Psygnal.Sel.C78_insert",
    "Psygnal.Sel.C78_clear",
    "Psygnal.Sel.C78_example_fine",
    "Psygnal.Sel.C78_example_next",
    "Psygnal.Sel.C78_example_commands",
    "Psygnal.Sel.C78_twice_refuted",
    "Psygnal.Sel.C78_none_selected"
   ],
   "note": "All of it for lists without repeated items; with an item twice select_next goes on from its first position and may never reach the rest (C78_twice_refuted). If the current item has left the list select_next raises ValueError (C78_next_stale)."
  },
  {
   "property": "C79",
   "status": "partial",
   "theorems": [
    "Psygnal.EL.C79_true_partial",
    "Psygnal.EL.C79_told_partial",
    "Psygnal.EL.C79_once_partial",
    "Psygnal.EL.C79_silent_partial",
    "Psygnal.EL.C79_example",
    "Psygnal.EL.C79_equal_refuted",
    "Psygnal.EL.C79_twice_refuted",
    "Psygnal.EL.C79_container_refuted",
    "Psygnal.EL.C79_fast_refuted",
    "Psygnal.EL.C79_nested_fast_refuted",
    "Psygnal.EL.C79_assigned_refuted",
    "Psygnal.EL.C79_harmless"
   ],
   "note": "Every report is true, for all programs whose emissions are by emit: the signal was emitted with those arguments, the object is the instance of the signal or of its relay, and the list has it or an equal item at the index. Every emission of a child in the list is reported, once per occurrence and way found; exactly once at its own position in the ordinary case; nothing is reported for children that were removed. False, with witnesses: emit_fast, containers as children, children that are equal or occur twice, item assignment. C79_harmless: the list never makes an emission of a child fail."
  },
  {
   "property": "C80",
   "status": "partial",
   "theorems": [
    "Psygnal.CC.C80_copy",
    "Psygnal.CC.C80_derive",
    "Psygnal.CC.C80_deepcopy",
    "Psygnal.CC.C80_independent",
    "Psygnal.CC.C80_calls",
    "Psygnal.CC.C80_stable",
    "Psygnal.CC.C80_equal",
    "Psygnal.CC.C80_options_partial",
    "Psygnal.CC.C80_selected_partial",
    "Psygnal.CC.C80_hashable_refuted",
    "Psygnal.CC.C80_child_events_refuted",
    "Psygnal.CC.C80_deep_child_events_refuted",
    "Psygnal.CC.C80_parent_refuted",
    "Psygnal.CC.C80_equal_hash_refuted",
    "Psygnal.CC.C80_nested_refuted",
    "Psygnal.CC.C80_deep_selected_refuted",
    "Psygnal.CC.C80_append_selects",
    "Psygnal.CC.C80_child"
   ],
   "note": "Contents, independence, callbacks, hash and equality of copies, over all programs. Options are kept for dicts and for default options only; lists lose hashable and child_events, selections their parent, and deep copies the connections to children and to removals (refuted). C80_child: who is told of a child's event."
  },
  {
   "property": "C81",
   "status": "proved",
   "theorems": [
    "Psygnal.C81_frame",
    "Psygnal.C81_same",
    "Psygnal.C81_commute",
    "Psygnal.C81_alone",
    "Psygnal.C81_queue_refuted",
    "Psygnal.C81_hook_refuted",
    "Psygnal.C81_emitter_refuted"
   ],
   "note": "For all programs of one side; what the sides share (emit_queued, the debug hook, the current emitter during an emission of the other side) is excluded in the property, and shown to matter by the _refuted theorems."
  },
  {
   "property": "C82",
   "status": "proved",
   "theorems": [
    "Psygnal.Conc.C82",
    "Psygnal.Conc.C82_sequential",
    "Psygnal.Conc.C82_emitter_refuted"
   ],
   "note": "Code that asks for the current emitter, which all threads share, is excluded in the property (C82_emitter_refuted; see C46)."
  },
  {
   "property": "C83",
   "status": "proved",
   "theorems": [
    "Psygnal.C83_ends",
    "Psygnal.C83_connect_refuted",
    "Psygnal.C83_pause_refuted",
    "Psygnal.C83_drain_refuted"
   ],
   "note": "All programs whose callbacks do not connect, pause, drain another thread's queue or install a hook end; for connecting, pausing and draining a program that never ends is given."
  },
  {
   "property": "C84",
   "status": "proved",
   "theorems": [
    "Psygnal.C84_modes",
    "Psygnal.C84_once",
    "Psygnal.C84_nested_refuted"
   ],
   "note": "all programs with levels, all modes; the refutation shows that the levels are needed"
  },
  {
   "property": "C85",
   "status": "partial",
   "theorems": [
    "Psygnal.C85_with_blocked",
    "Psygnal.C85_with_paused",
    "Psygnal.C85_overlap_partial",
    "Psygnal.C85_blocks_partial",
    "Psygnal.C85_pauses_partial",
    "Psygnal.C85_delivers_partial",
    "Psygnal.C85_left_blocked",
    "Psygnal.C85_left_paused",
    "Psygnal.C85_stale_refuted",
    "Psygnal.C85_reentered_refuted",
    "Psygnal.C85_second_refuted",
    "Psygnal.C85_stuck_blocked_refuted",
    "Psygnal.C85_stuck_paused_refuted"
   ],
   "note": "Proved for managers that are entered when created and left once, in any order and threads: the flags are restored, the first manager holds until it is left, emissions are neither lost nor doubled. False, with witnesses: managers entered later or twice, managers opened second, and __enter__ after another thread's __exit__ (the signal stays blocked for ever)."
  },
  {
   "property": "C86",
   "status": "partial",
   "theorems": [
    "Psygnal.Callers.C86_order",
    "Psygnal.Callers.C86_connect",
    "Psygnal.Callers.C86_unique",
    "Psygnal.Callers.C86_disconnect",
    "Psygnal.Callers.C86_calls",
    "Psygnal.Callers.C86_stops",
    "Psygnal.Callers.C86_death",
    "Psygnal.Callers.C86_gone_partial",
    "Psygnal.Callers.C86_which_refuted",
    "Psygnal.Callers.C86_settings_refuted",
    "Psygnal.Callers.C86_dead_refuted",
    "Psygnal.Callers.C86_twice_refuted",
    "Psygnal.Callers.C86_late_refuted"
   ],
   "note": "Order, delivery, unique, disconnect and the exact number of slots left after a death, for all histories of shared callbacks. That no dead slot stays needs: only the making signal, unique, while the object lives; each is refuted otherwise. max_args= and priority= of connect have no effect (refuted)."
  },
  {
   "property": "C87",
   "status": "proved",
   "theorems": [
    "Psygnal.C87_same",
    "Psygnal.C87_levels",
    "Psygnal.C87_emitter_refuted",
    "Psygnal.C87_modes_refuted",
    "Psygnal.C87_member_refuted",
    "Psygnal.C87_hook_refuted",
    "Psygnal.C87_nargs_refuted"
   ],
   "note": "On the Core model, for whole programs in both directions; the refuted theorems show that each condition of the statement is needed."
  },
  {
   "property": "C88",
   "status": "proved",
   "theorems": [
    "Psygnal.C88_unseen",
    "Psygnal.C88_priority_refuted",
    "Psygnal.C88_len_refuted",
    "Psygnal.C88_pause_refuted",
    "Psygnal.C88_fast_refuted"
   ],
   "note": "For all programs that end without the watcher; the refutations show that the conditions are needed."
  },
  {
   "property": "C89",
   "status": "partial",
   "theorems": [
    "Psygnal.Hook.C89_name",
    "Psygnal.Hook.C89_installed_partial",
    "Psygnal.Hook.C89_editable_partial",
    "Psygnal.Hook.C89_none",
    "Psygnal.Hook.C89_single_refuted",
    "Psygnal.Hook.C89_elsewhere_refuted",
    "Psygnal.Hook.C89_sub_refuted"
   ],
   "note": "Files and dotted names match for all module names, tags and separators. In general refuted: one compiled module only, directories with dots or leading .., subpackages in editable installations."
  },
  {
   "property": "C90",
   "status": "partial",
   "theorems": [
    "Psygnal.CoC.C90_linear_partial",
    "Psygnal.CoC.C90_moment",
    "Psygnal.CoC.C90_sorted_partial",
    "Psygnal.CoC.C90_unique_partial",
    "Psygnal.CoC.C90_kept",
    "Psygnal.CoC.C90_own",
    "Psygnal.CoC.C90_progress",
    "Psygnal.CoC.C90_released",
    "Psygnal.CoC.C90_wrong_refuted",
    "Psygnal.CoC.C90_index_refuted",
    "Psygnal.CoC.C90_priority_refuted",
    "Psygnal.CoC.C90_skipped_refuted",
    "Psygnal.CoC.C90_in_refuted",
    "Psygnal.CoC.C90_unique_refuted",
    "Psygnal.CoC.C90_core"
   ],
   "note": "Linearizable for all programs and schedules if no callback dies while a thread holds the lock. Deaths during calls: refuted, the garbage collector changes the list without the lock. C90_core: what a call does alone in this model is what it does in every reachable state of the single-threaded engine."
  },
  {
   "property": "C91",
   "status": "partial",
   "theorems": [
    "Psygnal.EqO.C91_descriptor_partial",
    "Psygnal.EqO.C91_attr_partial",
    "Psygnal.EqO.C91_equal_partial",
    "Psygnal.EqO.C91_attr_refuted",
    "Psygnal.EqO.C91_shared_refuted",
    "Psygnal.EqO.C91_two_refuted",
    "Psygnal.EqO.C91_property_refuted",
    "Psygnal.EqO.C91_model"
   ],
   "note": "Proved for one descriptor per class and operators that are not shared; __eq_operators__ of a class is in general overwritten, shared by derived classes, and extended by properties (refuted with witnesses)."
  },
  {
   "property": "C92",
   "status": "partial",
   "theorems": [
    "Psygnal.AtC.C92_value",
    "Psygnal.AtC.C92_untouched",
    "Psygnal.AtC.C92_told",
    "Psygnal.AtC.C92_silent",
    "Psygnal.AtC.C92_blocks",
    "Psygnal.AtC.C92_final",
    "Psygnal.AtC.C92_mirror_partial",
    "Psygnal.AtC.C92_mirror_refuted",
    "Psygnal.AtC.C92_silent_refuted",
    "Psygnal.AtC.C92_twice_refuted"
   ],
   "note": "All but the last sentence proved for all interleavings. The last sentence (a listener that keeps the last value) is proved when assignments of the attribute do not overlap and refuted when they do."
  },
  {
   "property": "C93",
   "status": "partial",
   "theorems": [
    "Psygnal.DlC.C93_value",
    "Psygnal.DlC.C93_untouched",
    "Psygnal.DlC.C93_blocks",
    "Psygnal.DlC.C93_told",
    "Psygnal.DlC.C93_named",
    "Psygnal.DlC.C93_alone_partial",
    "Psygnal.DlC.C93_stuck",
    "Psygnal.DlC.C93_silent_refuted",
    "Psygnal.DlC.C93_key_refuted",
    "Psygnal.DlC.C93_size_refuted",
    "Psygnal.DlC.C93_lost_refuted",
    "Psygnal.DlC.C93_mirror_partial"
   ],
   "note": "Stored values, order of events, what is told and of which names: proved for all interleavings. That an assignment raises nothing, tells exactly what changed and leaves nothing over is proved when nothing overlaps it and refuted when something does."
  },
  {
   "property": "C94",
   "status": "partial",
   "theorems": [
    "Psygnal.DcC.C94_value",
    "Psygnal.DcC.C94_gone",
    "Psygnal.DcC.C94_untouched",
    "Psygnal.DcC.C94_look",
    "Psygnal.DcC.C94_once",
    "Psygnal.DcC.C94_added",
    "Psygnal.DcC.C94_changed",
    "Psygnal.DcC.C94_removed",
    "Psygnal.DcC.C94_fail_set",
    "Psygnal.DcC.C94_fail_del",
    "Psygnal.DcC.C94_blocks",
    "Psygnal.DcC.C94_mirror_partial",
    "Psygnal.DcC.C94_story_partial",
    "Psygnal.DcC.C94_own",
    "Psygnal.DcC.C94_mirror_refuted",
    "Psygnal.DcC.C94_added_refuted",
    "Psygnal.DcC.C94_fail_refuted",
    "Psygnal.DcC.C94_stale_refuted",
    "Psygnal.DcC.C94_changed_refuted",
    "Psygnal.DcC.C94_removing_refuted",
    "Psygnal.DcC.C94_pop_refuted",
    "Psygnal.DcC.C94_setdefault_refuted",
    "Psygnal.DcC.C94_program",
    "Psygnal.DcC.C94_pop",
    "Psygnal.DcC.C94_setdefault"
   ],
   "note": "The claims about the copy, KeyError, removed and pop are false when operations on a key overlap (refuted with witnesses) and proved for keys on which operations do not overlap."
  },
  {
   "property": "C95",
   "status": "partial",
   "theorems": [
    "Psygnal.LsC.C95_list",
    "Psygnal.LsC.C95_look",
    "Psygnal.LsC.C95_size",
    "Psygnal.LsC.C95_length",
    "Psygnal.LsC.C95_bag",
    "Psygnal.LsC.C95_counted",
    "Psygnal.LsC.C95_inserted",
    "Psygnal.LsC.C95_changed",
    "Psygnal.LsC.C95_removed",
    "Psygnal.LsC.C95_moved",
    "Psygnal.LsC.C95_fail",
    "Psygnal.LsC.C95_program",
    "Psygnal.LsC.C95_blocks",
    "Psygnal.LsC.C95_append",
    "Psygnal.LsC.C95_append_end",
    "Psygnal.LsC.C95_pop",
    "Psygnal.LsC.C95_mirror_partial",
    "Psygnal.LsC.C95_story_partial",
    "Psygnal.LsC.C95_own",
    "Psygnal.LsC.C95_mirror_refuted",
    "Psygnal.LsC.C95_append_refuted",
    "Psygnal.LsC.C95_changed_refuted",
    "Psygnal.LsC.C95_fail_refuted",
    "Psygnal.LsC.C95_last_refuted",
    "Psygnal.LsC.C95_missing_refuted",
    "Psygnal.LsC.C95_pop_refuted"
   ],
   "note": "List as plain list, events, counting, IndexError, programs for all interleavings. Partial: a copy kept by events, and events that fit together, only if operations do not overlap; the rest is refuted by witnesses."
  },
  {
   "property": "C96",
   "status": "partial",
   "theorems": [
    "Psygnal.StC.C96_set",
    "Psygnal.StC.C96_nodup",
    "Psygnal.StC.C96_look",
    "Psygnal.StC.C96_signal",
    "Psygnal.StC.C96_program",
    "Psygnal.StC.C96_blocks",
    "Psygnal.StC.C96_change",
    "Psygnal.StC.C96_told",
    "Psygnal.StC.C96_origin",
    "Psygnal.StC.C96_account",
    "Psygnal.StC.C96_single",
    "Psygnal.StC.C96_adds",
    "Psygnal.StC.C96_mirror_partial",
    "Psygnal.StC.C96_quiet_partial",
    "Psygnal.StC.C96_unpaused_partial",
    "Psygnal.StC.C96_stuck_refuted",
    "Psygnal.StC.C96_lost_refuted",
    "Psygnal.StC.C96_left_refuted",
    "Psygnal.StC.C96_twice_refuted",
    "Psygnal.StC.C96_double_refuted",
    "Psygnal.StC.C96_order_refuted",
    "Psygnal.StC.C96_clear_refuted"
   ],
   "note": "Proved for all interleavings but the last sentence, which is refuted in general (C96_*_refuted) and proved if methods (or, for the pause, bulk methods) do not overlap."
  },
  {
   "property": "C97",
   "status": "partial",
   "theorems": [
    "Psygnal.StC.C97_set_partial",
    "Psygnal.StC.C97_set_writer",
    "Psygnal.DcC.C97_dict_partial",
    "Psygnal.DcC.C97_dict_writer",
    "Psygnal.LsC.C97_list_partial",
    "Psygnal.LsC.C97_list_writer",
    "Psygnal.StC.C97_set_refuted",
    "Psygnal.DcC.C97_dict_refuted",
    "Psygnal.LsC.C97_list_refuted"
   ],
   "note": "If operations do not overlap, or only one thread changes the container, the thread models of C94-C96 give exactly what the one-thread models of C30, C27/C28 and C31 give: contents, what is told with the contents at each moment, results. Overlapping operations are not as in any order (refuted by witness)."
  },
  {
   "property": "C98",
   "status": "partial",
   "theorems": [
    "Psygnal.AtC.C98_attr_partial",
    "Psygnal.AtC.C98_attr_writer",
    "Psygnal.AtC.C98_model_partial",
    "Psygnal.AtC.C98_model_writer",
    "Psygnal.AtC.C98_refuted",
    "Psygnal.DlC.C98_dependents_partial",
    "Psygnal.DlC.C98_dependents_refuted"
   ],
   "note": "Assignments that do not overlap, and attributes with one writer, are as in one thread; the general claim is refuted"
  },
  {
   "property": "C99",
   "status": "proved",
   "theorems": [
    "Psygnal.StC.C99_set",
    "Psygnal.StC.C99_set_free",
    "Psygnal.DcC.C99_dict",
    "Psygnal.DcC.C99_dict_free",
    "Psygnal.LsC.C99_list",
    "Psygnal.LsC.C99_list_free",
    "Psygnal.AtC.C99_attr",
    "Psygnal.AtC.C99_model",
    "Psygnal.AtC.C99_attr_free",
    "Psygnal.DlC.C99_dependents",
    "Psygnal.DlC.C99_dependents_free",
    "Psygnal.StC.C99_set_mirror",
    "Psygnal.DcC.C99_dict_mirror",
    "Psygnal.LsC.C99_list_mirror",
    "Psygnal.DcC.C99_dict_story",
    "Psygnal.LsC.C99_list_story",
    "Psygnal.AtC.C99_attr_mirror",
    "Psygnal.DlC.C99_dependents_mirror"
   ],
   "note": "With a lock around each operation every interleaving is as one thread, and the lock is always let go Copies kept by following what is told equal the contents whenever the lock is free. Each event fits the copy at its time."
  }
 ]
}
