{
 "claims": [
  {
   "property": "C01",
   "status": "proved",
   "theorems": [
    "S2P.C01_sorted_aligned_bounded"
   ],
   "note": ""
  },
  {
   "property": "C02",
   "status": "proved",
   "theorems": [
    "S2P.C02_append",
    "S2P.C02_append_only_strict"
   ],
   "note": ""
  },
  {
   "property": "C03",
   "status": "proved",
   "theorems": [
    "S2P.C03_find_scans",
    "S2P.C03_find_none"
   ],
   "note": ""
  },
  {
   "property": "C04",
   "status": "proved",
   "theorems": [
    "S2P.C04_range"
   ],
   "note": ""
  },
  {
   "property": "C05",
   "status": "proved",
   "theorems": [
    "S2P.C05_membership_scans"
   ],
   "note": "equal items must have equal keys (hypothesis)"
  },
  {
   "property": "C06",
   "status": "proved",
   "theorems": [
    "S2P.C06_insert",
    "S2P.C06_remove"
   ],
   "note": ""
  },
  {
   "property": "C07",
   "status": "proved",
   "theorems": [
    "S2P.C07_drop"
   ],
   "note": ""
  },
  {
   "property": "C08",
   "status": "proved",
   "theorems": [
    "S2P.C08_newest_accepted",
    "S2P.C08_increasing"
   ],
   "note": ""
  },
  {
   "property": "C09",
   "status": "proved",
   "theorems": [
    "S2P.C09_construct",
    "S2P.C09_clear_copy",
    "S2P.C09_resize",
    "S2P.C09_delkey",
    "S2P.C09_copy_reorders_ties"
   ],
   "note": "ties: a copy may reorder items with equal keys (C09_copy_reorders_ties)"
  },
  {
   "property": "C10",
   "status": "proved",
   "theorems": [
    "S2P.C10_find_last_gt"
   ],
   "note": ""
  },
  {
   "property": "C57",
   "status": "partial",
   "theorems": [
    "S2P.C57_accepted_increasing_partial",
    "S2P.C57_refuted"
   ],
   "note": "false once drop() has emptied the buffer; proved under the proviso that no append finds it emptied"
  },
  {
   "property": "C11",
   "status": "proved",
   "theorems": [
    "S2P.C11_window_refinement"
   ],
   "note": ""
  },
  {
   "property": "C12",
   "status": "proved",
   "theorems": [
    "S2P.C12_reads_increase"
   ],
   "note": ""
  },
  {
   "property": "C13",
   "status": "proved",
   "theorems": [
    "S2P.C13_positions",
    "S2P.C13_no_gap",
    "S2P.C13_no_gap_unbounded"
   ],
   "note": ""
  },
  {
   "property": "C14",
   "status": "proved",
   "theorems": [
    "S2P.C14_readers_independent",
    "S2P.C14_read_only"
   ],
   "note": ""
  },
  {
   "property": "C15",
   "status": "proved",
   "theorems": [
    "S2P.C15_peek_keeps_cursor",
    "S2P.C15_peek_same_result",
    "S2P.C15_peek_repeatable"
   ],
   "note": ""
  },
  {
   "property": "C16",
   "status": "proved",
   "theorems": [
    "S2P.C16_defaults"
   ],
   "note": "for every buffer and reader state; peek: C73"
  },
  {
   "property": "C17",
   "status": "proved",
   "theorems": [
    "S2P.C17_read_n",
    "S2P.C17_read_one"
   ],
   "note": "strict_n: C74"
  },
  {
   "property": "C18",
   "status": "proved",
   "theorems": [
    "S2P.C18_failed_call_keeps_cursor"
   ],
   "note": ""
  },
  {
   "property": "C19",
   "status": "proved",
   "theorems": [
    "S2P.C19_no_data"
   ],
   "note": ""
  },
  {
   "property": "C20",
   "status": "partial",
   "theorems": [
    "S2P.C20_only_new_partial",
    "S2P.C20_only_new_safe_partial",
    "S2P.C20_refuted"
   ],
   "note": "false with ignore_no_item_found and a key function that accepts None; proved otherwise"
  },
  {
   "property": "C21",
   "status": "proved",
   "theorems": [
    "S2P.C21_rounding"
   ],
   "note": ""
  },
  {
   "property": "C22",
   "status": "partial",
   "theorems": [
    "S2P.C22_nothing_new_partial",
    "S2P.C22_refuted"
   ],
   "note": "false unless key(None) raises TypeError"
  },
  {
   "property": "C23",
   "status": "proved",
   "theorems": [
    "S2P.C23_head_tail",
    "S2P.C23_empty"
   ],
   "note": ""
  },
  {
   "property": "C24",
   "status": "proved",
   "theorems": [
    "S2P.C24_last_key"
   ],
   "note": ""
  },
  {
   "property": "C28",
   "status": "proved",
   "theorems": [
    "S2P.C28_writer_exclusive",
    "S2P.C28_writer_not_reader"
   ],
   "note": ""
  },
  {
   "property": "C29",
   "status": "proved",
   "theorems": [
    "S2P.C29_snapshot",
    "S2P.C29_buffer_snapshot",
    "S2P.C29_atomic_is_channel_step"
   ],
   "note": "the last theorem only ties the atomic operations to the channel machine"
  },
  {
   "property": "C30",
   "status": "partial",
   "theorems": [
    "S2P.C30_no_deadlock_partial",
    "S2P.C30_everyone_finishes_partial",
    "S2P.C30_terminates",
    "S2P.C30_readers_only",
    "S2P.C30_refuted"
   ],
   "note": "false for nested readers (range calls read inside its reader section) when a writer comes in between: permanent deadlock, refuted on a witness for any data and operation; proved without nesting, or without writers"
  },
  {
   "property": "C31",
   "status": "proved",
   "theorems": [
    "S2P.C31_no_new_readers",
    "S2P.C31_no_new_readers_inside",
    "S2P.C31_readers_share"
   ],
   "note": ""
  },
  {
   "property": "C32",
   "status": "proved",
   "theorems": [
    "S2P.C32_restored",
    "S2P.C32_no_bad_release"
   ],
   "note": ""
  },
  {
   "property": "C25",
   "status": "proved",
   "theorems": [
    "S2P.C25_stop_iteration_iff_stopped",
    "S2P.C25_stop_is_permanent",
    "S2P.C25_drains",
    "S2P.C25_never_blocked",
    "S2P.C25_stop_iteration_race"
   ],
   "note": "the last theorem records that StopIteration can come with an item unread if the item is appended between the read and the look at the stop event"
  },
  {
   "property": "C26",
   "status": "partial",
   "theorems": [
    "S2P.C26_loop_complete_partial",
    "S2P.C26_loop_after_stop",
    "S2P.C26_loop_on_stopped",
    "S2P.C26_refuted",
    "S2P.chunks_flatten"
   ],
   "note": "false: an item appended between the last read of the loop and the stop event is lost (refuted on a witness); proved for loops that read once more after the stop event"
  },
  {
   "property": "C27",
   "status": "proved",
   "theorems": [
    "S2P.C27_none_only_stopped",
    "S2P.C27_read",
    "S2P.C27_wait",
    "S2P.C27_raises_only_strict",
    "S2P.C27_returns",
    "S2P.C27_none_race"
   ],
   "note": "the last theorem records that None can be returned although an item was appended just before the stop"
  },
  {
   "property": "C33",
   "status": "partial",
   "theorems": [
    "S2P.SB.C33_nothing_lost_partial",
    "S2P.SB.C33_reads_when_room_partial",
    "S2P.SB.C33_refuted"
   ],
   "note": "false when a source thread outlives the stop() of the next start() (refuted on a witness); proved for settled executions: every restart finds the earlier threads ended"
  },
  {
   "property": "C34",
   "status": "proved",
   "theorems": [
    "S2P.SB.C34_drop_refused",
    "S2P.SB.C34_only_eviction"
   ],
   "note": ""
  },
  {
   "property": "C35",
   "status": "proved",
   "theorems": [
    "S2P.SB.C35_mk_reader",
    "S2P.SB.C35_attach_reader",
    "S2P.SB.C35_not_started"
   ],
   "note": "every execution"
  },
  {
   "property": "C36",
   "status": "proved",
   "theorems": [
    "S2P.SB.C36_is_same_buffer",
    "S2P.SB.C36_old_stopped"
   ],
   "note": "every execution; isolation of data: C76"
  },
  {
   "property": "C37",
   "status": "partial",
   "theorems": [
    "S2P.SB.C37_one_reader_partial",
    "S2P.SB.C37_refuted"
   ],
   "note": "false when a thread outlives the stop() of the next start(); proved for settled executions"
  },
  {
   "property": "C38",
   "status": "proved",
   "theorems": [
    "S2P.SB.C38_same_event",
    "S2P.SB.C38_never_stuck",
    "S2P.SB.C38_meets"
   ],
   "note": "every execution; restarts: C77"
  },
  {
   "property": "C39",
   "status": "proved",
   "theorems": [
    "S2P.SB.C39_closed_once",
    "S2P.SB.C39_nothing_after_close",
    "S2P.SB.C39_stopped_before_close"
   ],
   "note": "every execution; the open/read/close protocol: C78"
  },
  {
   "property": "C40",
   "status": "partial",
   "theorems": [
    "S2P.SB.C40_stored_in_order_partial",
    "S2P.SB.C40_decision",
    "S2P.SB.C40_until_first_bad_key_partial"
   ],
   "note": "for settled executions; the clause on keys for auto_drop=True and maxlen not 0 (a drop that empties the buffer resets the comparison, C57)"
  },
  {
   "property": "C41",
   "status": "proved",
   "theorems": [
    "S2P.SB.C41_readers_see_stop",
    "S2P.SB.C41_not_running"
   ],
   "note": ""
  },
  {
   "property": "C42",
   "status": "proved",
   "theorems": [
    "S2P.SB.C42_is_running",
    "S2P.SB.C42_never_started"
   ],
   "note": "every execution; failed starts: C79"
  },
  {
   "property": "C43",
   "status": "partial",
   "theorems": [
    "S2P.SB.C43_current_session_partial",
    "S2P.SB.C43_not_started",
    "S2P.SB.C43_careful_partial",
    "S2P.SB.C43_refuted_death",
    "S2P.SB.C43_refuted_stop",
    "S2P.SB.C43_meets",
    "S2P.SB.C43_careful_meets"
   ],
   "note": "false after a thread death and restart without stop(), and after next() between stop() and start(); proved for tidy executions; C43_careful_partial states this in terms of the calls: every start() after a stop() that returned later than the last next()"
  },
  {
   "property": "C44",
   "status": "partial",
   "theorems": [
    "S2P.SB.C44_unbounded_auto_partial",
    "S2P.SB.C44_no_crash_partial",
    "S2P.SB.C44_refuted",
    "S2P.SB.C44_dies"
   ],
   "note": "with auto_drop=False no item is ever read, in any execution (TypeError comparing int with None); proved for auto_drop=True"
  },
  {
   "property": "C58",
   "status": "partial",
   "theorems": [
    "S2P.SB.C58_info_partial",
    "S2P.SB.C58_info_any_partial",
    "S2P.SB.C58_info_once",
    "S2P.SB.C58_refuted",
    "S2P.SB.C58_refuted_race"
   ],
   "note": "false while the buffer is empty: the truth test on the buffer object is its length; may raise AttributeError while another thread is in start() (the attribute is looked up twice); proved otherwise, and for every interleaving a dict returned is the info of the latest session"
  },
  {
   "property": "C59",
   "status": "proved",
   "theorems": [
    "S2P.SB.C59_attach",
    "S2P.SB.C59_meets"
   ],
   "note": ""
  },
  {
   "property": "C45",
   "status": "partial",
   "theorems": [
    "S2P.Src.C45_stops_with_last_close_partial",
    "S2P.Src.C45_stops_only_on_last_close_partial",
    "S2P.Src.C45_open_reader_live_partial",
    "S2P.Src.C45_stopped_for_all",
    "S2P.Src.C45_refuted_double_close"
   ],
   "note": "closing one reader twice stops the source although another reader is open; proved if no reader is closed twice and nobody replaces onclose. One thread opens and closes readers."
  },
  {
   "property": "C46",
   "status": "partial",
   "theorems": [
    "S2P.Src.C46_refuted_opened_once",
    "S2P.Src.C46_refuted_reopened_is_stopped",
    "S2P.Src.C46_refuted_failed_open_is_final",
    "S2P.Src.C46_refuted_failed_open_then",
    "S2P.Src.C46_first_open_partial",
    "S2P.Src.C46_refuted_witness",
    "S2P.Src.C46_refuted_failed_witness"
   ],
   "note": "false: the buffer is started once, so the source is never opened again; after the last close every further reader reads the stopped stream, after a failed open no open_reader ever succeeds; proved before the first stop"
  },
  {
   "property": "C47",
   "status": "partial",
   "theorems": [
    "S2P.Src.C47_close_partial",
    "S2P.Src.C47_refuted",
    "S2P.Src.C47_refuted_witness"
   ],
   "note": "closing a reader made by mk_reader raises AttributeError (onclose is declared, never assigned); proved for readers with an onclose"
  },
  {
   "property": "C48",
   "status": "proved",
   "theorems": [
    "S2P.Src.C48_configure",
    "S2P.Src.C48_settings_used",
    "S2P.Src.C48_buffer_has_settings"
   ],
   "note": ""
  },
  {
   "property": "C49",
   "status": "proved",
   "theorems": [
    "S2P.SR.C49_quick"
   ],
   "note": "every mixture of calls; other subclasses: C80"
  },
  {
   "property": "C50",
   "status": "proved",
   "theorems": [
    "S2P.C50_quick",
    "S2P.C50_quick_raising",
    "S2P.C50_plain"
   ],
   "note": "StreamSource: C81"
  },
  {
   "property": "C51",
   "status": "proved",
   "theorems": [
    "S2P.Simp.C51_never_rejects",
    "S2P.Simp.C51_first_component",
    "S2P.Simp.C51_default_key",
    "S2P.Simp.C51_meets"
   ],
   "note": "every execution in which the body does not call start(); restarts: C82"
  },
  {
   "property": "C52",
   "status": "partial",
   "theorems": [
    "S2P.Simp.C52_none_skipped_partial",
    "S2P.Simp.C52_refuted",
    "S2P.Simp.C52_refuted_witness",
    "S2P.Simp.C52_meets"
   ],
   "note": "false with the default enumerate_data=True: (n, None) is stored; proved for enumerate_data=False"
  },
  {
   "property": "C53",
   "status": "proved",
   "theorems": [
    "S2P.Simp.C53_always_stopped",
    "S2P.Simp.C53_can_leave",
    "S2P.Simp.C53_meets"
   ],
   "note": ""
  },
  {
   "property": "C54",
   "status": "proved",
   "theorems": [
    "S2P.C54_sleep_time"
   ],
   "note": ""
  },
  {
   "property": "C55",
   "status": "partial",
   "theorems": [
    "S2P.PyObj.C55_call_partial",
    "S2P.PyObj.C55_context_partial",
    "S2P.PyObj.C55_refuted_nested",
    "S2P.PyObj.C55_refuted_nested_witness",
    "S2P.PyObj.C55_refuted_attribute",
    "S2P.PyObj.C55_refuted_attribute_witness",
    "S2P.PyObj.C55_rejects_partial",
    "S2P.PyObj.C55_accepts_partial",
    "S2P.PyObj.C55_refuted_exit_validation",
    "S2P.PyObj.C55_refuted_exit_witness"
   ],
   "note": "false for a wrapped wrapper, for a wrapped object with an attribute named func, and in the validation: a callable exit function is never rejected; proved otherwise"
  },
  {
   "property": "C56",
   "status": "partial",
   "theorems": [
    "S2P.C56_request_partial",
    "S2P.C56_refuted",
    "S2P.C56_refuted_witness"
   ],
   "note": "the method and body given to the constructor are not used; proved for GET without a body"
  },
  {
   "property": "C60",
   "status": "partial",
   "theorems": [
    "S2P.Http.C60_refuted",
    "S2P.Http.C60_refuted_witness",
    "S2P.HttpSrc.C111_consumer_no_auto_drop",
    "S2P.HttpSrc.C111_consumer"
   ],
   "note": "false of the code with a bounded buffer and auto_drop=True; true with auto_drop=False as long as nothing is dropped, and with maxlen=None (C111)"
  },
  {
   "property": "C61",
   "status": "partial",
   "theorems": [
    "S2P.Http.C61_refuted",
    "S2P.Http.C61_refuted_witness"
   ],
   "note": "the stated property is false of the code (the byte counter stays 0): only the refutation is proved"
  },
  {
   "property": "C62",
   "status": "partial",
   "theorems": [
    "S2P.RObjs.C62_info_partial",
    "S2P.RObjs.C62_stop_event",
    "S2P.RObjs.C62_refuted",
    "S2P.RObjs.C62_refuted_witness"
   ],
   "note": "attach_reader leaves the source info of the reader unchanged; proved for readers made by mk_reader"
  },
  {
   "property": "C63",
   "status": "proved",
   "theorems": [
    "S2P.SB.C63_part_of_stored",
    "S2P.SB.C63_nothing_missing",
    "S2P.SB.C63_all_retained",
    "S2P.SB.C63_unbounded",
    "S2P.SB.C63_meets",
    "S2P.SB.C63_meets_bounded",
    "S2P.SB.C63_bounded_misses"
   ],
   "note": "every execution; the step from the source to the session buffer: C84"
  },
  {
   "property": "C64",
   "status": "partial",
   "theorems": [
    "S2P.ObjSB.C64_fresh_start_partial",
    "S2P.ObjSB.C64_info_of_open_partial",
    "S2P.ObjSB.C64_orderly_never_dies_partial",
    "S2P.ObjSB.C64_orderly_all_stored_partial",
    "S2P.ObjSB.C64_source_object_to_consumer_partial",
    "S2P.Counter.orderly",
    "S2P.Counter.C64_counter_data_partial",
    "S2P.Counter.C64_counter_complete_partial",
    "S2P.Counter.C64_counter_never_dies_partial",
    "S2P.Counter.C64_counter_to_consumer_partial",
    "S2P.Counter.C64_counter_info_partial",
    "S2P.Counter.C64_meets",
    "S2P.Counter.C64_refuted"
   ],
   "note": "proved for executions in which a restart finds the earlier thread ended; otherwise false: the old thread can close the source under the new session (C64_refuted)"
  },
  {
   "property": "C65",
   "status": "proved",
   "theorems": [
    "S2P.JSB.C65_join_means_over",
    "S2P.JSB.C65_join_unblocks",
    "S2P.JSB.C65_join_before_start",
    "S2P.JSB.C65_join_after_failed_start",
    "S2P.JSB.C65_join_waits_for_last",
    "S2P.JSB.C66_meets"
   ],
   "note": "every execution; join() raises AttributeError before the first start and RuntimeError after a start that failed; it waits for the thread of the last start only"
  },
  {
   "property": "C66",
   "status": "proved",
   "theorems": [
    "S2P.JSB.C66_careful_settled",
    "S2P.JSB.C66_careful",
    "S2P.JSB.C66_old_frozen",
    "S2P.JSB.C66_source_to_consumer",
    "S2P.JSB.C66_one_start_settled",
    "S2P.JSB.C66_meets"
   ],
   "note": "turns the settled-execution theorems (C33, C36, C37, C39, C40, C63) into guarantees under a discipline users can follow; a single start is enough as well"
  },
  {
   "property": "C67",
   "status": "proved",
   "theorems": [
    "S2P.C67_linearizable",
    "S2P.C67_waits_only_for_lock",
    "S2P.LMW.C67_example",
    "S2P.LMW.C67_example_waits",
    "S2P.C67_unlocked_len",
    "S2P.C67_no_endless_run",
    "S2P.C67_calls_return",
    "S2P.LMW.C67_calls_return_meets",
    "S2P.LMW.C67_nested_deadlock"
   ],
   "note": "linearizability (Herlihy and Wing) with respect to the sequential machine of Model/Channel.lean, about which C11-C27 are stated; bodies of reader calls are executed access by access, including the nested read of range(only_new_items=True); assigning and deleting last_item happens without the lock; hypothesis NonOverlapping: calls on one reader do not overlap (any thread may use any reader, one at a time)"
  },
  {
   "property": "C68",
   "status": "partial",
   "theorems": [
    "S2P.LMW.C68_shared_reader",
    "S2P.LMW.C68_not_linearizable",
    "S2P.C67_linearizable"
   ],
   "note": "the property is false of the code: a reader takes the buffer lock only for reading, so two threads calling next() on one reader may both compute their result from the same last item and get the same item (C68_shared_reader); the history has no linearization at all (C68_not_linearizable). True version: C67_linearizable, for threads that share a reader but never call it at the same time, e.g. under a lock of their own"
  },
  {
   "property": "C69",
   "status": "partial",
   "theorems": [
    "S2P.MSrc.C69_one_at_a_time_partial",
    "S2P.MSrc.C69_stops_with_last_close_partial",
    "S2P.MSrc.C69_stops_only_on_last_close_partial",
    "S2P.MSrc.C69_first_alone_partial",
    "S2P.MSrcW.C69_example",
    "S2P.MSrcW.C69_first_alone_example",
    "S2P.MSrcW.C69_refuted_two_buffers",
    "S2P.MSrcW.C69_refuted_session_ended",
    "S2P.MSrcW.C69_refuted_not_started",
    "S2P.MSrcW.C69_refuted_lost_open",
    "S2P.MSrcW.C69_refuted_lost_close",
    "S2P.MSrcW.C69_refuted_close_raises"
   ],
   "note": "false of the code in six ways, each with a witness schedule: two stream buffers of which one is never stopped, the session of an open reader ended by another open_reader, StreamNotStartedError, a lost increment (stopped under an open reader), a lost decrement (never stopped), AttributeError from close. True: calls that do not overlap behave as those of one thread (so C45-C48 apply, restated for stopping); once a first open_reader has returned alone, any number of concurrent calls never fail, make no second buffer, do not open the source again and give readers of the same session"
  },
  {
   "property": "C70",
   "status": "partial",
   "theorems": [
    "S2P.C70_whole_partial",
    "S2P.C70_lock_partial",
    "S2P.C70_refuted_lockout",
    "S2P.C70_refuted_exclusion",
    "S2P.C70_refuted_exclusion_reader",
    "S2P.C70_refuted_half_drop",
    "S2P.C70_refuted_half_drop_find"
   ],
   "note": "false of the code: the context managers acquire inside try, so an interrupted acquisition is followed by a release of what was not acquired. An interrupt between lines 43 and 46 of reader_acquire locks readers out for ever (proved for all histories before and after); interrupts of waiting writers or of readers at line 42 let a writer in beside a reader; an interrupted drop() leaves keys and items out of step. True: interrupts that strike inside sections are harmless for the lock, and for the data unless they split an operation"
  },
  {
   "property": "C71",
   "status": "proved",
   "theorems": [
    "S2P.HttpSrc.C71_never_dies",
    "S2P.HttpSrc.C71_body",
    "S2P.HttpSrc.C71_meets",
    "S2P.HttpSrc.C71_clock_needed",
    "S2P.HttpSrc.C71_encoding_needed"
   ],
   "note": "the conditions of the statement are the hypotheses Smooth, Ticks, the homomorphism f, Calm. Equal clock readings give equal keys: the append is refused and the thread ends (C71_clock_needed); a character of several bytes at the border of two pieces makes read() raise although the body is well encoded (C71_encoding_needed)"
  },
  {
   "property": "C72",
   "status": "partial",
   "theorems": [
    "S2P.C72_rekey_partial",
    "S2P.C72_refuted"
   ],
   "note": "false of the code: the bound is lost (the property object refers to the setter of the base class); re-sorting proved"
  },
  {
   "property": "C73",
   "status": "partial",
   "theorems": [
    "S2P.C73_peek_partial",
    "S2P.C73_refuted"
   ],
   "note": "false of the code: read() uses peek=False whatever was given to mk_reader; an explicit peek is honoured, and the default False"
  },
  {
   "property": "C74",
   "status": "partial",
   "theorems": [
    "S2P.C74_strict_partial",
    "S2P.C74_refuted"
   ],
   "note": "false with exactly n unread items (off by one): ValueError; proved for every other number. With nothing unread and ignore_no_item_found it returns None, see C124"
  },
  {
   "property": "C75",
   "status": "partial",
   "theorems": [
    "S2P.SB.C75_refuted_always",
    "S2P.SB.C75_refuted",
    "S2P.SB.C35_mk_reader"
   ],
   "note": "false of the code: a failed restart takes the session away, in every execution; the exact answer of mk_reader is C35"
  },
  {
   "property": "C76",
   "status": "partial",
   "theorems": [
    "S2P.SB.C76_own_buffer_partial",
    "S2P.SB.C76_old_frozen_partial",
    "S2P.SB.C76_refuted",
    "S2P.SB.C76_late_drop"
   ],
   "note": "false when a thread outlives the restart, proved for settled executions (every restart finds the earlier threads ended; see C66 for how users get there); a drop() that looked up the buffer before a restart still takes items out of the old buffer (C76_late_drop), nothing else does"
  },
  {
   "property": "C77",
   "status": "partial",
   "theorems": [
    "S2P.SB.C77_stop_prompt_partial",
    "S2P.SB.C77_refuted"
   ],
   "note": "proved for settled executions; false otherwise: the old thread looks at the new event and goes on"
  },
  {
   "property": "C78",
   "status": "partial",
   "theorems": [
    "S2P.SB.C78_protocol_partial",
    "S2P.SB.C78_refuted",
    "S2P.SB.C78_refuted_info"
   ],
   "note": "proved for settled executions whose source.info does not raise, false otherwise"
  },
  {
   "property": "C79",
   "status": "partial",
   "theorems": [
    "S2P.SB.C79_latest_attempt_partial",
    "S2P.SB.C79_refuted"
   ],
   "note": "false of the code: a start() whose open raised leaves an unset stop event, so is_running is true until stop() or start() is called (proved for every execution)"
  },
  {
   "property": "C80",
   "status": "partial",
   "theorems": [
    "S2P.SR.C80_with_partial",
    "S2P.SR.C80_refuted",
    "S2P.SR.C80_refuted_witness",
    "S2P.SR.C80_refuted_mixed"
   ],
   "note": "for plain subclasses the flag is set only by __enter__/__exit__ and stays at its first value under open()/close() (refuted); proved for with only"
  },
  {
   "property": "C81",
   "status": "partial",
   "theorems": [
    "S2P.C81_source_partial",
    "S2P.C81_source_stopped_partial",
    "S2P.C81_refuted"
   ],
   "note": "false of the code: AttributeError at the first None; proved if read never returns None, and for subclasses that define is_stopped"
  },
  {
   "property": "C82",
   "status": "partial",
   "theorems": [
    "S2P.Simp.C82_restarts_partial",
    "S2P.Simp.C82_refuted"
   ],
   "note": "proved for restarts that find the earlier thread ended; false otherwise: the counter is reset under the running thread"
  },
  {
   "property": "C83",
   "status": "proved",
   "theorems": [
    "S2P.Http.C83_close_idempotent",
    "S2P.Http.C83_closed_once"
   ],
   "note": ""
  },
  {
   "property": "C84",
   "status": "partial",
   "theorems": [
    "S2P.SB.C84_part_of_read_partial",
    "S2P.SB.C84_no_auto_drop_partial",
    "S2P.SB.C84_source_to_consumer_partial",
    "S2P.SB.C76_refuted"
   ],
   "note": "proved for executions in which a restart finds the earlier thread ended (for the discipline see C66); otherwise an item of one session can be stored in the next (C76_refuted)"
  },
  {
   "property": "C85",
   "status": "proved",
   "theorems": [
    "S2P.SB.C85_ends_for_a_reason",
    "S2P.SB.C85_runs_on",
    "S2P.SB.C85_meets",
    "S2P.SB.C85_settled_needed"
   ],
   "note": "conditions in the statement"
  },
  {
   "property": "C86",
   "status": "proved",
   "theorems": [
    "S2P.SB.C86_keeps_reading",
    "S2P.SB.C86_keeps_reading_auto",
    "S2P.SB.C85_meets"
   ],
   "note": ""
  },
  {
   "property": "C87",
   "status": "proved",
   "theorems": [
    "S2P.ObjSB.C87_fresh_start",
    "S2P.ObjSB.C87_info_of_open",
    "S2P.ObjSB.C87_never_dies",
    "S2P.ObjSB.C87_all_stored",
    "S2P.ObjSB.C87_to_consumer",
    "S2P.Counter.orderly",
    "S2P.Counter.C87_counter_data",
    "S2P.Counter.C87_counter_info",
    "S2P.Counter.C87_counter_never_dies",
    "S2P.Counter.C88_meets"
   ],
   "note": ""
  },
  {
   "property": "C88",
   "status": "proved",
   "theorems": [
    "S2P.Counter.C88_counter_completes",
    "S2P.Counter.C88_counter_delivers",
    "S2P.Counter.C88_meets"
   ],
   "note": ""
  },
  {
   "property": "C89",
   "status": "proved",
   "theorems": [
    "S2P.JSB.C89_stop_join_returns",
    "S2P.JSB.C89_meets"
   ],
   "note": ""
  },
  {
   "property": "C90",
   "status": "proved",
   "theorems": [
    "S2P.SB.C90_death_is_final",
    "S2P.SB.C90_meets"
   ],
   "note": ""
  },
  {
   "property": "C91",
   "status": "proved",
   "theorems": [
    "S2P.SB.C91_gets_everything",
    "S2P.SB.C91_no_stall",
    "S2P.SB.C91_meets",
    "S2P.SB.C91_increasing_needed"
   ],
   "note": ""
  },
  {
   "property": "C92",
   "status": "proved",
   "theorems": [
    "S2P.SB.C92_loop_gets_all",
    "S2P.SB.C92_drop_loop_gets_all",
    "S2P.SB.C92_meets",
    "S2P.SB.C92_drop_meets"
   ],
   "note": ""
  },
  {
   "property": "C93",
   "status": "proved",
   "theorems": [
    "S2P.Counter.C93_counter_loop",
    "S2P.Counter.C93_meets"
   ],
   "note": ""
  },
  {
   "property": "C94",
   "status": "proved",
   "theorems": [
    "S2P.SB.C94_stored_increasing",
    "S2P.SB.C94_meets"
   ],
   "note": ""
  },
  {
   "property": "C95",
   "status": "proved",
   "theorems": [
    "S2P.SB.C95_served",
    "S2P.SB.C95_meets",
    "S2P.SB.C95_meets_loop"
   ],
   "note": ""
  },
  {
   "property": "C96",
   "status": "proved",
   "theorems": [
    "S2P.SB.C96_keeps_up",
    "S2P.SB.C96_loop_gets_all",
    "S2P.SB.C96_meets"
   ],
   "note": ""
  },
  {
   "property": "C97",
   "status": "proved",
   "theorems": [
    "S2P.SB.C97_next_items",
    "S2P.SB.C97_meets"
   ],
   "note": ""
  },
  {
   "property": "C98",
   "status": "proved",
   "theorems": [
    "S2P.JSB.C98_drain_after_join",
    "S2P.JSB.C98_all_stored",
    "S2P.JSB.C98_meets"
   ],
   "note": ""
  },
  {
   "property": "C99",
   "status": "proved",
   "theorems": [
    "S2P.C99_part_of_accepted",
    "S2P.C99_increasing",
    "S2P.C99_misses_nothing",
    "S2P.C99_meets",
    "S2P.C99_meets_bounded"
   ],
   "note": ""
  },
  {
   "property": "C100",
   "status": "proved",
   "theorems": [
    "S2P.Simp.C100_part_of_reads",
    "S2P.Simp.C100_right_numbers",
    "S2P.Simp.C100_nothing_missing",
    "S2P.Simp.C100_loop_gets_reads",
    "S2P.Simp.C100_meets"
   ],
   "note": ""
  },
  {
   "property": "C101",
   "status": "proved",
   "theorems": [
    "S2P.Src.C101_part_of_read",
    "S2P.Src.C101_nothing_missing",
    "S2P.Src.C101_protocol",
    "S2P.Src.C101_source_closed",
    "S2P.Src.Witness.C101_meets"
   ],
   "note": ""
  },
  {
   "property": "C102",
   "status": "proved",
   "theorems": [
    "S2P.SimplySrc.C102_one_at_a_time",
    "S2P.SimplySrc.C102_nothing_left_open",
    "S2P.SimplySrc.C102_meets",
    "S2P.SimplySrc.C102_calm_needed",
    "S2P.SimplySrc.C102_info_needed"
   ],
   "note": ""
  },
  {
   "property": "C103",
   "status": "proved",
   "theorems": [
    "S2P.SimplySrc.C103_lines_read",
    "S2P.SimplySrc.C103_never_dies",
    "S2P.SimplySrc.C103_stored",
    "S2P.SimplySrc.C103_range",
    "S2P.SimplySrc.C103_meets"
   ],
   "note": ""
  },
  {
   "property": "C104",
   "status": "partial",
   "theorems": [
    "S2P.XD.C104_unchanged_partial",
    "S2P.XD.C104_reassign_partial",
    "S2P.XDW.C104_refuted_drop",
    "S2P.XDW.C104_refuted_maxlen",
    "S2P.XD.C104_refuted_maxlen_always",
    "S2P.XDW.C104_refuted_key",
    "S2P.XDW.C104_meets"
   ],
   "note": "false of the code in three ways: drop(n) of too many items raises after dropping all; the assignment of an invalid bound (d.maxlen = -1) raises after the bound has been taken away, while d.maxlen still shows the old one; after an assignment of a key function that raised, copy.copy and pickling use that function and raise. Proved for append, insert, insert_right, remove (nothing changes), and for the other assignments as far as copy.copy and pickling are not concerned"
  },
  {
   "property": "C105",
   "status": "proved",
   "theorems": [
    "S2P.XD.C105_in_step",
    "S2P.XD.C105_search_sound",
    "S2P.XD.C105_append",
    "S2P.XD.C105_search_fails",
    "S2P.XDW.C105_meets",
    "S2P.XDW.C105_meets_fails"
   ],
   "note": ""
  },
  {
   "property": "C106",
   "status": "proved",
   "theorems": [
    "S2P.XD.C106_never_mixed",
    "S2P.XD.C106_blocks",
    "S2P.XDW.C106_meets",
    "S2P.XDW.C105_meets"
   ],
   "note": ""
  },
  {
   "property": "C107",
   "status": "proved",
   "theorems": [
    "S2P.SB.C107_loop_ends",
    "S2P.SB.C107_meets"
   ],
   "note": ""
  },
  {
   "property": "C108",
   "status": "proved",
   "theorems": [
    "S2P.Simp.C108_nothing_lost",
    "S2P.Simp.C108_misses_at_most",
    "S2P.Simp.C108_maxlen_one",
    "S2P.Simp.C109_refuted"
   ],
   "note": "C109_refuted is also the case that meets the hypotheses of C108_misses_at_most"
  },
  {
   "property": "C109",
   "status": "partial",
   "theorems": [
    "S2P.Simp.C109_second_loop_partial",
    "S2P.Simp.C109_refuted",
    "S2P.Simp.C109_meets"
   ],
   "note": "false of the code: when the loop has found the buffer empty, the source thread may store the last item and set the stop event before the loop looks at the event; the loop ends with an item unread (C109_refuted, the documented example itself, ends after nine of ten numbers). True: running the loop again gives the rest; and C108"
  },
  {
   "property": "C110",
   "status": "proved",
   "theorems": [
    "S2P.ObjSB.C110_nothing_lost",
    "S2P.HttpSrc.C110_meets"
   ],
   "note": ""
  },
  {
   "property": "C111",
   "status": "proved",
   "theorems": [
    "S2P.HttpSrc.C111_no_hole",
    "S2P.HttpSrc.C111_consumer",
    "S2P.HttpSrc.C111_consumer_no_auto_drop",
    "S2P.HttpSrc.C111_meets",
    "S2P.HttpSrc.C111_meets_no_auto_drop"
   ],
   "note": ""
  },
  {
   "property": "C112",
   "status": "proved",
   "theorems": [
    "S2P.LineSrc.C112_lines",
    "S2P.LineSrc.C112_consumer",
    "S2P.LineSrc.C112_range",
    "S2P.LineSrc.C112_meets"
   ],
   "note": ""
  },
  {
   "property": "C113",
   "status": "partial",
   "theorems": [
    "S2P.LineSrc.C113_refuted",
    "S2P.LineSrc.C112_consumer"
   ],
   "note": "false of the code: readline() gives empty lines for ever after the last line, each is numbered and stored, so for every file and every n there is an execution after which n items are retained. What the buffer then holds is C112"
  },
  {
   "property": "C114",
   "status": "partial",
   "theorems": [
    "S2P.NSB.C114_refuted",
    "S2P.NSB.C114_refuted_two",
    "S2P.NSB.C115_one_reader",
    "S2P.NSB.C115_part_of_stored"
   ],
   "note": "false of the code: stop() forgets the reader, so the first call after it starts again at the oldest item retained; and two threads making their first call at the same time make a reader each. What holds is C115"
  },
  {
   "property": "C115",
   "status": "proved",
   "theorems": [
    "S2P.NSB.C115_part_of_stored",
    "S2P.NSB.C115_one_reader",
    "S2P.NSB.C115_nothing_missing",
    "S2P.NSB.C115_returns",
    "S2P.NSB.C115_meets"
   ],
   "note": ""
  },
  {
   "property": "C116",
   "status": "partial",
   "theorems": [
    "S2P.SB.C116_refuted",
    "S2P.SB.C117_short_session"
   ],
   "note": "false of the code: next(reader) returns None when nothing new is stored, so n calls give fewer than n items. What holds is C117: nothing is lost, the items come with later calls"
  },
  {
   "property": "C117",
   "status": "proved",
   "theorems": [
    "S2P.SB.C117_short_session",
    "S2P.SB.C117_from_source",
    "S2P.NSB.C117_next_short_session",
    "S2P.SB.C117_meets",
    "S2P.SB.C117_bound_needed"
   ],
   "note": ""
  },
  {
   "property": "C118",
   "status": "proved",
   "theorems": [
    "S2P.SB.C118_part_of_stored",
    "S2P.SB.C118_all_retained",
    "S2P.SB.C118_unbounded",
    "S2P.SB.C118_short_session",
    "S2P.SB.C118_no_auto_drop",
    "S2P.SB.C118_meets"
   ],
   "note": ""
  },
  {
   "property": "C119",
   "status": "proved",
   "theorems": [
    "S2P.SB.C119_part_of_stored",
    "S2P.SB.C119_all_retained",
    "S2P.SB.C119_meets"
   ],
   "note": ""
  },
  {
   "property": "C120",
   "status": "proved",
   "theorems": [
    "S2P.XD.C120_insert",
    "S2P.XD.C120_remove",
    "S2P.XD.C120_drop",
    "S2P.XD.C120_reassign",
    "S2P.XDW.C120_meets"
   ],
   "note": ""
  },
  {
   "property": "C121",
   "status": "proved",
   "theorems": [
    "S2P.SB.C121_range",
    "S2P.SB.C121_complete",
    "S2P.SB.C121_ends",
    "S2P.SB.C121_meets",
    "S2P.SB.C121_meets_drop"
   ],
   "note": ""
  },
  {
   "property": "C122",
   "status": "proved",
   "theorems": [
    "S2P.C122_new_items",
    "S2P.C122_meets"
   ],
   "note": ""
  },
  {
   "property": "C123",
   "status": "proved",
   "theorems": [
    "S2P.RW.C123_no_deadlock",
    "S2P.RW.C123_everyone_finishes",
    "S2P.C30_terminates",
    "S2P.RW.C123_meets"
   ],
   "note": ""
  },
  {
   "property": "C124",
   "status": "proved",
   "theorems": [
    "S2P.C124_strict",
    "S2P.C124_meets"
   ],
   "note": ""
  },
  {
   "property": "C125",
   "status": "proved",
   "theorems": [
    "S2P.C125_peek_default",
    "S2P.C125_meets"
   ],
   "note": ""
  },
  {
   "property": "C126",
   "status": "proved",
   "theorems": [
    "S2P.SB.C126_info",
    "S2P.SB.C126_meets"
   ],
   "note": ""
  },
  {
   "property": "C127",
   "status": "proved",
   "theorems": [
    "S2P.Src.C127_new_readers",
    "S2P.Src.C127_closed_once",
    "S2P.Src.C127_meets"
   ],
   "note": ""
  },
  {
   "property": "C128",
   "status": "proved",
   "theorems": [
    "S2P.JSB.C128_room",
    "S2P.SB.C128_next",
    "S2P.JSB.C128_meets",
    "S2P.SB.C43_careful_meets"
   ],
   "note": ""
  },
  {
   "property": "C129",
   "status": "proved",
   "theorems": [
    "S2P.SR.C129_closed_exact",
    "S2P.SR.C129_meets"
   ],
   "note": ""
  },
  {
   "property": "C130",
   "status": "proved",
   "theorems": [
    "S2P.ASB.C130_meanwhile",
    "S2P.ASB.C130_retained",
    "S2P.ASB.C130_received",
    "S2P.ASB.C130_false",
    "S2P.ASB.C130_true",
    "S2P.ASB.C130_resumes",
    "S2P.ASB.C130_meets",
    "S2P.ASB.C130_meets_consumer",
    "S2P.ASB.C130_meets_resumes"
   ],
   "note": ""
  },
  {
   "property": "C131",
   "status": "proved",
   "theorems": [
    "S2P.JSB.C131_before_start",
    "S2P.JSB.C131_meets"
   ],
   "note": ""
  },
  {
   "property": "C132",
   "status": "proved",
   "theorems": [
    "S2P.C132_in_order",
    "S2P.C132_split",
    "S2P.C132_appended",
    "S2P.C132_nothing_missing",
    "S2P.LMW.C132_meets"
   ],
   "note": ""
  },
  {
   "property": "C133",
   "status": "proved",
   "theorems": [
    "S2P.SB.C133_exceptions",
    "S2P.SB.C133_thread_exceptions",
    "S2P.NSB.C133_next_raises",
    "S2P.SB.C133_meets",
    "S2P.SB.C133_meets_thread"
   ],
   "note": ""
  },
  {
   "property": "C134",
   "status": "proved",
   "theorems": [
    "S2P.SB.Forever.C134_stop_closes",
    "S2P.SB.Forever.C134_death_closes",
    "S2P.SB.Forever.C134_reads_on",
    "S2P.SB.Forever.C134_loop_gets_all",
    "S2P.SB.Forever.C134_loop_ends",
    "S2P.SB.Forever.C134_served",
    "S2P.Counter.C134_counter",
    "S2P.SB.C134_meets",
    "S2P.SB.C134_meets_on",
    "S2P.Counter.C134_counter_meets"
   ],
   "note": "Infinite executions (Spec/Run); fairness is a hypothesis on the scheduler: whoever can go on gets another turn."
  },
  {
   "property": "C135",
   "status": "proved",
   "theorems": [
    "S2P.DSB.C135_runs_on",
    "S2P.DSB.C135_del_harmless",
    "S2P.DSB.C135_is_stop",
    "S2P.DSB.C135_meets",
    "S2P.DSB.C135_meets_del"
   ],
   "note": "Reference counting is modelled as: references of the program, frames of calls in progress, running threads."
  },
  {
   "property": "C136",
   "status": "proved",
   "theorems": [
    "S2P.JSB.C136_failed_start",
    "S2P.JSB.C136_meets"
   ],
   "note": ""
  },
  {
   "property": "C137",
   "status": "proved",
   "theorems": [
    "S2P.Src.C137_started_once",
    "S2P.Src.C137_mk_reader",
    "S2P.Src.C137_meets",
    "S2P.Src.C137_mk_reader_meets"
   ],
   "note": ""
  },
  {
   "property": "C138",
   "status": "proved",
   "theorems": [
    "S2P.Src.C138_close",
    "S2P.Src.C137_meets"
   ],
   "note": ""
  },
  {
   "property": "C139",
   "status": "proved",
   "theorems": [
    "S2P.PyObj.C139_wraps",
    "S2P.PyObj.C139_validation",
    "S2P.PyObj.C139_meets"
   ],
   "note": ""
  },
  {
   "property": "C140",
   "status": "proved",
   "theorems": [
    "S2P.RObjs.C140_reader_info",
    "S2P.RObjs.C140_meets"
   ],
   "note": ""
  },
  {
   "property": "C141",
   "status": "proved",
   "theorems": [
    "S2P.MSrc.C141_by_turns",
    "S2P.MSrc.C141_after_first",
    "S2P.MSrcW.C69_example",
    "S2P.MSrcW.C69_first_alone_example"
   ],
   "note": ""
  },
  {
   "property": "C142",
   "status": "proved",
   "theorems": [
    "S2P.C142_interrupted_inside",
    "S2P.C142_meets"
   ],
   "note": ""
  },
  {
   "property": "C143",
   "status": "proved",
   "theorems": [
    "S2P.Simp.C143_none_skipped",
    "S2P.Simp.C52_meets"
   ],
   "note": ""
  },
  {
   "property": "C144",
   "status": "proved",
   "theorems": [
    "S2P.LineSrc.C144_before",
    "S2P.LineSrc.C144_open",
    "S2P.LineSrc.C144_closed"
   ],
   "note": ""
  },
  {
   "property": "C145",
   "status": "proved",
   "theorems": [
    "S2P.HttpSrc.C145_not_open",
    "S2P.HttpSrc.C145_close",
    "S2P.HttpSrc.C145_open",
    "S2P.HttpSrc.C145_time"
   ],
   "note": ""
  },
  {
   "property": "C146",
   "status": "proved",
   "theorems": [
    "S2P.SimplySrc.C146_functions",
    "S2P.SimplySrc.C146_read",
    "S2P.SimplySrc.C146_file_before",
    "S2P.SimplySrc.C146_file_open",
    "S2P.SimplySrc.C146_file_closed"
   ],
   "note": ""
  },
  {
   "property": "C147",
   "status": "proved",
   "theorems": [
    "S2P.Counter.C147_not_open",
    "S2P.Counter.C147_open",
    "S2P.Counter.C147_calm"
   ],
   "note": ""
  },
  {
   "property": "C148",
   "status": "proved",
   "theorems": [
    "S2P.ObjSrc.C148_is_source",
    "S2P.ObjSrc.C148_untouched",
    "S2P.ObjSrc.C148_fresh_start",
    "S2P.ObjSrc.C148_info",
    "S2P.ObjSrc.C148_never_dies",
    "S2P.ObjSrc.C148_to_consumer",
    "S2P.Counter.C148_meets_before"
   ],
   "note": "Concrete case: Counter.C149_meets."
  },
  {
   "property": "C149",
   "status": "proved",
   "theorems": [
    "S2P.Counter.C149_data",
    "S2P.Counter.C149_all_delivered",
    "S2P.Counter.C149_loop",
    "S2P.Counter.C149_info",
    "S2P.Counter.C149_never_dies",
    "S2P.Counter.C149_meets"
   ],
   "note": ""
  },
  {
   "property": "C150",
   "status": "proved",
   "theorems": [
    "S2P.RW.C150_writer_enters",
    "S2P.RW.C150_writer_done",
    "S2P.RW.C150_sections_end",
    "S2P.RW.C150_reader_enters",
    "S2P.RW.C150_one_writer",
    "S2P.RW.C150_readers_may_starve",
    "S2P.RW.C150_meets"
   ],
   "note": "Strong fairness is an assumption on the scheduler; nested reader sections (which range makes) are excluded because they can deadlock, C30."
  },
  {
   "property": "C151",
   "status": "proved",
   "theorems": [
    "S2P.SB.C151_no_effect",
    "S2P.SB.C151_when",
    "S2P.SB.C151_loop_again",
    "S2P.SB.C151_meets"
   ],
   "note": ""
  },
  {
   "property": "C152",
   "status": "proved",
   "theorems": [
    "S2P.GSB.C152_iter_does_nothing",
    "S2P.GSB.C152_session",
    "S2P.GSB.C152_not_started",
    "S2P.GSB.C152_outcomes",
    "S2P.GSB.C152_part_of_stored",
    "S2P.GSB.C152_unbounded",
    "S2P.GSB.C152_gets_all",
    "S2P.GSB.C152_ends",
    "S2P.GSB.C152_drains",
    "S2P.GSB.C152_never_stuck",
    "S2P.GSB.C152_meets",
    "S2P.GSB.C152_meets_not_started",
    "S2P.GSB.C152_meets_all",
    "S2P.GSB.C152_meets_end"
   ],
   "note": ""
  },
  {
   "property": "C153",
   "status": "proved",
   "theorems": [
    "S2P.C153_seek",
    "S2P.C153_reads_on",
    "S2P.C153_misses_nothing",
    "S2P.C153_take_over",
    "S2P.C153_meets"
   ],
   "note": ""
  },
  {
   "property": "C154",
   "status": "proved",
   "theorems": [
    "S2P.JSB.C154_join_returns",
    "S2P.JSB.C154_drain",
    "S2P.Src.C154_last_close",
    "S2P.Src.C154_loops_end",
    "S2P.GSB.C154_iter_gets_all",
    "S2P.GSB.C154_iter_ends",
    "S2P.JSB.C154_meets",
    "S2P.Src.Witness.C154_meets",
    "S2P.GSB.C154_meets"
   ],
   "note": "infinite executions with explicit fairness hypotheses; lassos meeting all hypotheses in Props/Fair2Witness.lean (JSB.C154_meets, Src.Witness.C154_meets, GSB.C154_meets)"
  },
  {
   "property": "C155",
   "status": "proved",
   "theorems": [
    "S2P.ObjSB.C155_one_sequence",
    "S2P.ObjSB.C155_sessions_go_on",
    "S2P.ObjSB.C155_accounted",
    "S2P.Quick.C155_info",
    "S2P.Quick.C155_list",
    "S2P.Quick.C155_list_exhausted",
    "S2P.Quick.C155_list_stored",
    "S2P.Quick.C155_idx",
    "S2P.Quick.C155_meets",
    "S2P.Quick.C155_lost_item",
    "S2P.Quick.C155_idx_meets"
   ],
   "note": "C155_one_sequence holds of every execution; the others of settled ones (what happens in unsettled ones is C64_refuted)"
  },
  {
   "property": "C156",
   "status": "proved",
   "theorems": [
    "S2P.XD.C156_search",
    "S2P.XD.C156_given",
    "S2P.XD.C156_tied",
    "S2P.XD.C156_history",
    "S2P.XD.C156_remake",
    "S2P.XDW.C156_ties",
    "S2P.XDW.C156_meets",
    "S2P.XDW.C156_meets_tied",
    "S2P.XDW.C156_meets_history"
   ],
   "note": "Model/Cost.lean lists the calls; Proofs/Cost.lean proves that its results are those of Model/Raising.lean and Model/SortedDeque.lean. Not counted: the comparisons of sorted(), and the identity shortcut of == on containers"
  },
  {
   "property": "C157",
   "status": "proved",
   "theorems": [
    "S2P.SB.C157_never_stuck",
    "S2P.SB.C157_bounded",
    "S2P.SB.Forever.C157_ends",
    "S2P.SB.C157_meets",
    "S2P.SB.C157_meets_raise",
    "S2P.SB.C157_meets_fair"
   ],
   "note": "The bound 10 rests on the fact that line 277 (the second stop() of a start()) is never reached"
  },
  {
   "property": "C158",
   "status": "proved",
   "theorems": [
    "S2P.SB.C158_never_stuck",
    "S2P.SB.C158_bounded",
    "S2P.SB.Forever.C158_ends",
    "S2P.SB.C158_meets",
    "S2P.SB.C158_meets_fair"
   ],
   "note": "The waiting of drop and of the read for the reader-writer lock is in the lock properties (C28-C32, C150)"
  },
  {
   "property": "C159",
   "status": "proved",
   "theorems": [
    "S2P.LSB.C159_as_if_launched",
    "S2P.LSB.C159_never_closed",
    "S2P.LSB.C159_looks_started",
    "S2P.LSB.C159_nothing_arrives",
    "S2P.LSB.C159_stays_empty",
    "S2P.LSB.C159_meets",
    "S2P.LSB.C159_opened_twice"
   ],
   "note": "A finding: the source stays open and is_running says True after a start() that raised"
  },
  {
   "property": "C160",
   "status": "proved",
   "theorems": [
    "S2P.SD.C160_calls",
    "S2P.SD.C160_searches",
    "S2P.SD.C160_membership",
    "S2P.SD.C160_meets"
   ],
   "note": "the keys themselves must not change, so the default identity key on changing items is left out"
  },
  {
   "property": "C161",
   "status": "proved",
   "theorems": [
    "S2P.IterSD.C161_deque",
    "S2P.IterSD.C161_each_once",
    "S2P.IterSD.C161_collection",
    "S2P.IterSD.C161_insert_behind",
    "S2P.IterSD.C161_meets",
    "S2P.IterSD.C161_meets_reversed",
    "S2P.IterSD.C161_collection_reversed",
    "S2P.IterSD.C161_twice_and_left_out",
    "S2P.IterSD.C161_behind_meets"
   ],
   "note": ""
  },
  {
   "property": "C162",
   "status": "proved",
   "theorems": [
    "S2P.SB.C162_from_any_moment",
    "S2P.SB.C162_attached",
    "S2P.SB.C162_meets",
    "S2P.SB.C162_meets_bounded"
   ],
   "note": ""
  },
  {
   "property": "C163",
   "status": "proved",
   "theorems": [
    "S2P.FSB.C163_one_step",
    "S2P.FSB.C163_only_the_lock_blocks",
    "S2P.FSB.C163_consumer",
    "S2P.FineW.C163_meets",
    "S2P.FineW.C163_meets_drop"
   ],
   "note": ""
  },
  {
   "property": "C164",
   "status": "proved",
   "theorems": [
    "S2P.FSB.C164_writer_returns",
    "S2P.FSB.C164_reader_returns",
    "S2P.FSB.C164_pauses",
    "S2P.FSB.C164_stop_closes",
    "S2P.FSB.C164_death_closes",
    "S2P.FSB.C164_reads_on",
    "S2P.FSB.C164_loop_gets_all",
    "S2P.FSB.C164_loop_ends",
    "S2P.FSB.C164_served",
    "S2P.FineW.C164_meets"
   ],
   "note": ""
  },
  {
   "property": "C165",
   "status": "proved",
   "theorems": [
    "S2P.ISB.C165_as_if",
    "S2P.ISB.C165_consumer",
    "S2P.ISB.C165_left_open",
    "S2P.ISB.C165_after",
    "S2P.ISB.C165_early",
    "S2P.ISB.C165_next_start",
    "S2P.ISB.C165_meets_sleep",
    "S2P.ISB.C165_stale_next",
    "S2P.ISB.C165_meets_open",
    "S2P.ISB.C165_opened_twice",
    "S2P.ISB.C165_meets_both"
   ],
   "note": ""
  },
  {
   "property": "C166",
   "status": "proved",
   "theorems": [
    "S2P.SB.C166_conserved",
    "S2P.SB.C166_forward",
    "S2P.SB.C166_merge",
    "S2P.SB.C166_consumer",
    "S2P.SB.C166_old_session",
    "S2P.SB.C166_meets",
    "S2P.SB.C166_meets_lost"
   ],
   "note": ""
  },
  {
   "property": "C167",
   "status": "proved",
   "theorems": [
    "S2P.SB.Forever.C167_gets_all",
    "S2P.SB.Forever.C167_reads_on",
    "S2P.Counter.C167_counter",
    "S2P.SB.C167_meets",
    "S2P.SB.C167_drops_needed",
    "S2P.Counter.C167_counter_meets"
   ],
   "note": ""
  },
  {
   "property": "C168",
   "status": "proved",
   "theorems": [
    "S2P.MSB.C168_stream_buffer",
    "S2P.MSB.C168_in_order",
    "S2P.MSB.C168_moved",
    "S2P.MSB.C168_is_stopped",
    "S2P.MSB.C168_ends_with_its_session",
    "S2P.MSB.C168_loop_ends",
    "S2P.MSB.C168_meets",
    "S2P.MSB.C168_meets_ends",
    "S2P.MSB.C168_late_item"
   ],
   "note": "C168_late_item: a call of next that has looked up the old buffer when the reader is moved hands out an item of the old session after attach_reader has returned. C168_loop_ends allows for a read of the old buffer pending."
  },
  {
   "property": "C169",
   "status": "partial",
   "theorems": [
    "S2P.MSB.C169_refuted",
    "S2P.MSB.C169_ends_with_its_session_partial",
    "S2P.MSB.C169_meets"
   ],
   "note": "False between the two assignments of attach_reader (C169_refuted); proved of every step outside a call of attach_reader on the reader."
  },
  {
   "property": "C170",
   "status": "proved",
   "theorems": [
    "S2P.SB.C170_nothing_retained",
    "S2P.SB.C170_nothing_refused",
    "S2P.SB.C170_never_reads",
    "S2P.SB.C170_never_starts",
    "S2P.SB.C170_meets_auto",
    "S2P.SB.C170_meets_manual",
    "S2P.SB.C170_meets_never"
   ],
   "note": "A negative maxlen is modelled as the statement 287-295 raising (the action bufRaise) in each start()."
  },
  {
   "property": "C171",
   "status": "proved",
   "theorems": [
    "S2P.AgedCh.C171_as_if_unchanged",
    "S2P.AgedCh.C171_each_once",
    "S2P.AgedCh.C171_meets"
   ],
   "note": "Items are objects, == and the key function are replaced by others at any moment; reads only (range, head, tail and assignments of last_item: see C175)."
  },
  {
   "property": "C172",
   "status": "partial",
   "theorems": [
    "S2P.AgedCh.C172_exactly_partial",
    "S2P.AgedCh.C172_refuted_skipped",
    "S2P.AgedCh.C172_refuted_twice",
    "S2P.AgedCh.C172_refuted_stuck",
    "S2P.AgedCh.C172_meets"
   ],
   "note": "False of the code: three refutations. What holds instead is proved: the exact outcome of every append, drop and read in every history with changing items. With the keys of unread items kept it holds, see C171."
  },
  {
   "property": "C173",
   "status": "proved",
   "theorems": [
    "S2P.ASB.C173_as_if",
    "S2P.ASB.C173_first_none",
    "S2P.ASB.C173_dies",
    "S2P.ASB.C173_data",
    "S2P.ASB.C173_meets",
    "S2P.ASB.C173_meets_user",
    "S2P.ASB.C173_meets_accepted",
    "S2P.ASB.C173_meets_full",
    "S2P.ASB.C173_meets_stopped"
   ],
   "note": "Which numbers time.sleep rejects is not modelled: the exception is any."
  },
  {
   "property": "C174",
   "status": "proved",
   "theorems": [
    "S2P.NCons.C174_as_if",
    "S2P.NCons.C174_in_order",
    "S2P.NCons.C174_read",
    "S2P.NCons.C174_loop",
    "S2P.NCons.C174_own",
    "S2P.NCons.C174_meets_loop",
    "S2P.NCons.C174_meets_user",
    "S2P.NCons.C174_meets_read",
    "S2P.NCons.C174_meets_reset",
    "S2P.NCons.C174_meets_own"
   ],
   "note": "Which values time.sleep rejects is not modelled: what it raises is part of the setting."
  },
  {
   "property": "C175",
   "status": "proved",
   "theorems": [
    "S2P.AgedCh.C175_as_if_unchanged",
    "S2P.AgedCh.C175_meets",
    "S2P.AgedCh.C175_refuted_changed"
   ],
   "note": "Items are objects, == and the key function are replaced by others at any moment. The last theorem: without the condition on the keys it is false."
  },
  {
   "property": "C176",
   "status": "proved",
   "theorems": [
    "S2P.AttrCh.C176_no_effect",
    "S2P.AttrCh.C176_shows",
    "S2P.AttrCh.C176_meets",
    "S2P.AttrCh.C176_not_expected"
   ],
   "note": "What the code does; the last theorem: it is not the semantics one may expect of the attributes."
  },
  {
   "property": "C177",
   "status": "proved",
   "theorems": [
    "S2P.WSB.C177_as_if",
    "S2P.WSB.C177_left_alone",
    "S2P.WSB.C177_at_once",
    "S2P.WSB.C177_not_opened",
    "S2P.WSB.C177_consumer",
    "S2P.WSB.C177_meets",
    "S2P.WSB.C177_meets_user",
    "S2P.WSB.C177_meets_left_alone"
   ],
   "note": "All sources have the same key function."
  }
 ]
}