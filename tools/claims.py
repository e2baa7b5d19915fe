c('C01','proved','C01_sorted_aligned_bounded')
c('C02','proved','C02_append C02_append_only_strict')
c('C03','proved','C03_find_scans C03_find_none')
c('C04','proved','C04_range')
c('C05','proved','C05_membership_scans','equal items must have equal keys (hypothesis)')
c('C06','proved','C06_insert C06_remove')
c('C07','proved','C07_drop')
c('C08','proved','C08_newest_accepted C08_increasing')
c('C09','proved','C09_construct C09_clear_copy C09_resize C09_delkey C09_copy_reorders_ties','ties: a copy may reorder items with equal keys (C09_copy_reorders_ties)')
c('C10','proved','C10_find_last_gt')
c('C57','partial','C57_accepted_increasing_partial C57_refuted','false once drop() has emptied the buffer; proved under the proviso that no append finds it emptied')
c('C11','proved','C11_window_refinement')
c('C12','proved','C12_reads_increase')
c('C13','proved','C13_positions C13_no_gap C13_no_gap_unbounded')
c('C14','proved','C14_readers_independent C14_read_only')
c('C15','proved','C15_peek_keeps_cursor C15_peek_same_result C15_peek_repeatable')
c('C16','proved','C16_defaults','for every buffer and reader state; peek: C73')
c('C17','proved','C17_read_n C17_read_one','strict_n: C74')
c('C18','proved','C18_failed_call_keeps_cursor')
c('C19','proved','C19_no_data')
c('C20','partial','C20_only_new_partial C20_only_new_safe_partial C20_refuted','false with ignore_no_item_found and a key function that accepts None; proved otherwise')
c('C21','proved','C21_rounding')
c('C22','partial','C22_nothing_new_partial C22_refuted','false unless key(None) raises TypeError')
c('C23','proved','C23_head_tail C23_empty')
c('C24','proved','C24_last_key')
c('C28','proved','C28_writer_exclusive C28_writer_not_reader')
c('C29','proved','C29_snapshot C29_buffer_snapshot C29_atomic_is_channel_step','the last theorem only ties the atomic operations to the channel machine')
c('C30','partial','C30_no_deadlock_partial C30_everyone_finishes_partial C30_terminates C30_readers_only C30_refuted','false for nested readers (range calls read inside its reader section) when a writer comes in between: permanent deadlock, refuted on a witness for any data and operation; proved without nesting, or without writers')
c('C31','proved','C31_no_new_readers C31_no_new_readers_inside C31_readers_share')
c('C32','proved','C32_restored C32_no_bad_release')
c('C25','proved','C25_stop_iteration_iff_stopped C25_stop_is_permanent C25_drains C25_never_blocked C25_stop_iteration_race','the last theorem records that StopIteration can come with an item unread if the item is appended between the read and the look at the stop event')
c('C26','partial','C26_loop_complete_partial C26_loop_after_stop C26_loop_on_stopped C26_refuted chunks_flatten','false: an item appended between the last read of the loop and the stop event is lost (refuted on a witness); proved for loops that read once more after the stop event')
c('C27','proved','C27_none_only_stopped C27_read C27_wait C27_raises_only_strict C27_returns C27_none_race','the last theorem records that None can be returned although an item was appended just before the stop')
c('C33','partial','SB.C33_nothing_lost_partial SB.C33_reads_when_room_partial SB.C33_refuted','false when a source thread outlives the stop() of the next start() (refuted on a witness); proved for settled executions: every restart finds the earlier threads ended')
c('C34','proved','SB.C34_drop_refused SB.C34_only_eviction')
c('C35','proved','SB.C35_mk_reader SB.C35_attach_reader SB.C35_not_started','every execution')
c('C36','proved','SB.C36_is_same_buffer SB.C36_old_stopped','every execution; isolation of data: C76')
c('C37','partial','SB.C37_one_reader_partial SB.C37_refuted','false when a thread outlives the stop() of the next start(); proved for settled executions')
c('C38','proved','SB.C38_same_event SB.C38_never_stuck SB.C38_meets','every execution; restarts: C77')
c('C39','proved','SB.C39_closed_once SB.C39_nothing_after_close SB.C39_stopped_before_close','every execution; the open/read/close protocol: C78')
c('C40','partial','SB.C40_stored_in_order_partial SB.C40_decision SB.C40_until_first_bad_key_partial','for settled executions; the clause on keys for auto_drop=True and maxlen not 0 (a drop that empties the buffer resets the comparison, C57)')
c('C41','proved','SB.C41_readers_see_stop SB.C41_not_running')
c('C42','proved','SB.C42_is_running SB.C42_never_started','every execution; failed starts: C79')
c('C43','partial','SB.C43_current_session_partial SB.C43_not_started SB.C43_careful_partial SB.C43_refuted_death SB.C43_refuted_stop SB.C43_meets SB.C43_careful_meets','false after a thread death and restart without stop(), and after next() between stop() and start(); proved for tidy executions; C43_careful_partial states this in terms of the calls: every start() after a stop() that returned later than the last next()')
c('C44','partial','SB.C44_unbounded_auto_partial SB.C44_no_crash_partial SB.C44_refuted SB.C44_dies','with auto_drop=False no item is ever read, in any execution (TypeError comparing int with None); proved for auto_drop=True')
c('C58','partial','SB.C58_info_partial SB.C58_info_any_partial SB.C58_info_once SB.C58_refuted SB.C58_refuted_race','false while the buffer is empty: the truth test on the buffer object is its length; may raise AttributeError while another thread is in start() (the attribute is looked up twice); proved otherwise, and for every interleaving a dict returned is the info of the latest session')
c('C59','proved','SB.C59_attach SB.C59_meets')
c('C45','partial','Src.C45_stops_with_last_close_partial Src.C45_stops_only_on_last_close_partial Src.C45_open_reader_live_partial Src.C45_stopped_for_all Src.C45_refuted_double_close','closing one reader twice stops the source although another reader is open; proved if no reader is closed twice and nobody replaces onclose. One thread opens and closes readers.')
c('C46','partial','Src.C46_refuted_opened_once Src.C46_refuted_reopened_is_stopped Src.C46_refuted_failed_open_is_final Src.C46_refuted_failed_open_then Src.C46_first_open_partial Src.C46_refuted_witness Src.C46_refuted_failed_witness','false: the buffer is started once, so the source is never opened again; after the last close every further reader reads the stopped stream, after a failed open no open_reader ever succeeds; proved before the first stop')
c('C47','partial','Src.C47_close_partial Src.C47_refuted Src.C47_refuted_witness','closing a reader made by mk_reader raises AttributeError (onclose is declared, never assigned); proved for readers with an onclose')
c('C48','proved','Src.C48_configure Src.C48_settings_used Src.C48_buffer_has_settings')
c('C49','proved','SR.C49_quick','every mixture of calls; other subclasses: C80')
c('C50','proved','C50_quick C50_quick_raising C50_plain','StreamSource: C81')
c('C51','proved','Simp.C51_never_rejects Simp.C51_first_component Simp.C51_default_key Simp.C51_meets','every execution in which the body does not call start(); restarts: C82')
c('C52','partial','Simp.C52_none_skipped_partial Simp.C52_refuted Simp.C52_refuted_witness Simp.C52_meets','false with the default enumerate_data=True: (n, None) is stored; proved for enumerate_data=False')
c('C53','proved','Simp.C53_always_stopped Simp.C53_can_leave Simp.C53_meets')
c('C54','proved','C54_sleep_time')
c('C55','partial','PyObj.C55_call_partial PyObj.C55_context_partial PyObj.C55_refuted_nested PyObj.C55_refuted_nested_witness PyObj.C55_refuted_attribute PyObj.C55_refuted_attribute_witness PyObj.C55_rejects_partial PyObj.C55_accepts_partial PyObj.C55_refuted_exit_validation PyObj.C55_refuted_exit_witness','false for a wrapped wrapper, for a wrapped object with an attribute named func, and in the validation: a callable exit function is never rejected; proved otherwise')
c('C56','partial','C56_request_partial C56_refuted C56_refuted_witness','the method and body given to the constructor are not used; proved for GET without a body')
c('C60','partial','Http.C60_refuted Http.C60_refuted_witness HttpSrc.C111_consumer_no_auto_drop HttpSrc.C111_consumer','false of the code with a bounded buffer and auto_drop=True; true with auto_drop=False as long as nothing is dropped, and with maxlen=None (C111)')
c('C61','partial','Http.C61_refuted Http.C61_refuted_witness','the stated property is false of the code (the byte counter stays 0): only the refutation is proved')
c('C62','partial','RObjs.C62_info_partial RObjs.C62_stop_event RObjs.C62_refuted RObjs.C62_refuted_witness','attach_reader leaves the source info of the reader unchanged; proved for readers made by mk_reader')
c('C63','proved','SB.C63_part_of_stored SB.C63_nothing_missing SB.C63_all_retained SB.C63_unbounded SB.C63_meets SB.C63_meets_bounded SB.C63_bounded_misses','every execution; the step from the source to the session buffer: C84')
c('C64','partial','ObjSB.C64_fresh_start_partial ObjSB.C64_info_of_open_partial ObjSB.C64_orderly_never_dies_partial ObjSB.C64_orderly_all_stored_partial ObjSB.C64_source_object_to_consumer_partial Counter.orderly Counter.C64_counter_data_partial Counter.C64_counter_complete_partial Counter.C64_counter_never_dies_partial Counter.C64_counter_to_consumer_partial Counter.C64_counter_info_partial Counter.C64_meets Counter.C64_refuted','proved for executions in which a restart finds the earlier thread ended; otherwise false: the old thread can close the source under the new session (C64_refuted)')
c('C65','proved','JSB.C65_join_means_over JSB.C65_join_unblocks JSB.C65_join_before_start JSB.C65_join_after_failed_start JSB.C65_join_waits_for_last JSB.C66_meets','every execution; join() raises AttributeError before the first start and RuntimeError after a start that failed; it waits for the thread of the last start only')
c('C66','proved','JSB.C66_careful_settled JSB.C66_careful JSB.C66_old_frozen JSB.C66_source_to_consumer JSB.C66_one_start_settled JSB.C66_meets','turns the settled-execution theorems (C33, C36, C37, C39, C40, C63) into guarantees under a discipline users can follow; a single start is enough as well')
c('C67','proved','C67_linearizable C67_waits_only_for_lock LMW.C67_example LMW.C67_example_waits C67_unlocked_len C67_no_endless_run C67_calls_return LMW.C67_calls_return_meets LMW.C67_nested_deadlock','linearizability (Herlihy and Wing) with respect to the sequential machine of Model/Channel.lean, about which C11-C27 are stated; bodies of reader calls are executed access by access, including the nested read of range(only_new_items=True); assigning and deleting last_item happens without the lock; hypothesis NonOverlapping: calls on one reader do not overlap (any thread may use any reader, one at a time)')
c('C68','partial','LMW.C68_shared_reader LMW.C68_not_linearizable C67_linearizable','the property is false of the code: a reader takes the buffer lock only for reading, so two threads calling next() on one reader may both compute their result from the same last item and get the same item (C68_shared_reader); the history has no linearization at all (C68_not_linearizable). True version: C67_linearizable, for threads that share a reader but never call it at the same time, e.g. under a lock of their own')
c('C69','partial','MSrc.C69_one_at_a_time_partial MSrc.C69_stops_with_last_close_partial MSrc.C69_stops_only_on_last_close_partial MSrc.C69_first_alone_partial MSrcW.C69_example MSrcW.C69_first_alone_example MSrcW.C69_refuted_two_buffers MSrcW.C69_refuted_session_ended MSrcW.C69_refuted_not_started MSrcW.C69_refuted_lost_open MSrcW.C69_refuted_lost_close MSrcW.C69_refuted_close_raises','false of the code in six ways, each with a witness schedule: two stream buffers of which one is never stopped, the session of an open reader ended by another open_reader, StreamNotStartedError, a lost increment (stopped under an open reader), a lost decrement (never stopped), AttributeError from close. True: calls that do not overlap behave as those of one thread (so C45-C48 apply, restated for stopping); once a first open_reader has returned alone, any number of concurrent calls never fail, make no second buffer, do not open the source again and give readers of the same session')
c('C70','partial','C70_whole_partial C70_lock_partial C70_refuted_lockout C70_refuted_exclusion C70_refuted_exclusion_reader C70_refuted_half_drop C70_refuted_half_drop_find','false of the code: the context managers acquire inside try, so an interrupted acquisition is followed by a release of what was not acquired. An interrupt between lines 43 and 46 of reader_acquire locks readers out for ever (proved for all histories before and after); interrupts of waiting writers or of readers at line 42 let a writer in beside a reader; an interrupted drop() leaves keys and items out of step. True: interrupts that strike inside sections are harmless for the lock, and for the data unless they split an operation')
c('C71','proved','HttpSrc.C71_never_dies HttpSrc.C71_body HttpSrc.C71_meets HttpSrc.C71_clock_needed HttpSrc.C71_encoding_needed','the conditions of the statement are the hypotheses Smooth, Ticks, the homomorphism f, Calm. Equal clock readings give equal keys: the append is refused and the thread ends (C71_clock_needed); a character of several bytes at the border of two pieces makes read() raise although the body is well encoded (C71_encoding_needed)')
c('C72','partial','C72_rekey_partial C72_refuted','false of the code: the bound is lost (the property object refers to the setter of the base class); re-sorting proved')
c('C73','partial','C73_peek_partial C73_refuted','false of the code: read() uses peek=False whatever was given to mk_reader; an explicit peek is honoured, and the default False')
c('C74','partial','C74_strict_partial C74_refuted','false with exactly n unread items (off by one): ValueError; proved for every other number. With nothing unread and ignore_no_item_found it returns None, see C124')
c('C75','partial','SB.C75_refuted_always SB.C75_refuted SB.C35_mk_reader','false of the code: a failed restart takes the session away, in every execution; the exact answer of mk_reader is C35')
c('C76','partial','SB.C76_own_buffer_partial SB.C76_old_frozen_partial SB.C76_refuted SB.C76_late_drop','false when a thread outlives the restart, proved for settled executions (every restart finds the earlier threads ended; see C66 for how users get there); a drop() that looked up the buffer before a restart still takes items out of the old buffer (C76_late_drop), nothing else does')
c('C77','partial','SB.C77_stop_prompt_partial SB.C77_refuted','proved for settled executions; false otherwise: the old thread looks at the new event and goes on')
c('C78','partial','SB.C78_protocol_partial SB.C78_refuted SB.C78_refuted_info','proved for settled executions whose source.info does not raise, false otherwise')
c('C79','partial','SB.C79_latest_attempt_partial SB.C79_refuted','false of the code: a start() whose open raised leaves an unset stop event, so is_running is true until stop() or start() is called (proved for every execution)')
c('C80','partial','SR.C80_with_partial SR.C80_refuted SR.C80_refuted_witness SR.C80_refuted_mixed','for plain subclasses the flag is set only by __enter__/__exit__ and stays at its first value under open()/close() (refuted); proved for with only')
c('C81','partial','C81_source_partial C81_source_stopped_partial C81_refuted','false of the code: AttributeError at the first None; proved if read never returns None, and for subclasses that define is_stopped')
c('C82','partial','Simp.C82_restarts_partial Simp.C82_refuted','proved for restarts that find the earlier thread ended; false otherwise: the counter is reset under the running thread')
c('C83','proved','Http.C83_close_idempotent Http.C83_closed_once','')
c('C84','partial','SB.C84_part_of_read_partial SB.C84_no_auto_drop_partial SB.C84_source_to_consumer_partial SB.C76_refuted','proved for executions in which a restart finds the earlier thread ended (for the discipline see C66); otherwise an item of one session can be stored in the next (C76_refuted)')
c('C85','proved','SB.C85_ends_for_a_reason SB.C85_runs_on SB.C85_meets SB.C85_settled_needed','conditions in the statement')
c('C86','proved','SB.C86_keeps_reading SB.C86_keeps_reading_auto SB.C85_meets','')
c('C87','proved','ObjSB.C87_fresh_start ObjSB.C87_info_of_open ObjSB.C87_never_dies ObjSB.C87_all_stored ObjSB.C87_to_consumer Counter.orderly Counter.C87_counter_data Counter.C87_counter_info Counter.C87_counter_never_dies Counter.C88_meets','')
c('C88','proved','Counter.C88_counter_completes Counter.C88_counter_delivers Counter.C88_meets','')
c('C89','proved','JSB.C89_stop_join_returns JSB.C89_meets','')
c('C90','proved','SB.C90_death_is_final SB.C90_meets','')
c('C91','proved','SB.C91_gets_everything SB.C91_no_stall SB.C91_meets SB.C91_increasing_needed','')
c('C92','proved','SB.C92_loop_gets_all SB.C92_drop_loop_gets_all SB.C92_meets SB.C92_drop_meets','')
c('C93','proved','Counter.C93_counter_loop Counter.C93_meets','')
c('C94','proved','SB.C94_stored_increasing SB.C94_meets','')
c('C95','proved','SB.C95_served SB.C95_meets SB.C95_meets_loop','')
c('C96','proved','SB.C96_keeps_up SB.C96_loop_gets_all SB.C96_meets','')
c('C97','proved','SB.C97_next_items SB.C97_meets','')
c('C98','proved','JSB.C98_drain_after_join JSB.C98_all_stored JSB.C98_meets','')
c('C99','proved','C99_part_of_accepted C99_increasing C99_misses_nothing C99_meets C99_meets_bounded','')
c('C100','proved','Simp.C100_part_of_reads Simp.C100_right_numbers Simp.C100_nothing_missing Simp.C100_loop_gets_reads Simp.C100_meets','')
c('C101','proved','Src.C101_part_of_read Src.C101_nothing_missing Src.C101_protocol Src.C101_source_closed Src.Witness.C101_meets','')
c('C102','proved','SimplySrc.C102_one_at_a_time SimplySrc.C102_nothing_left_open SimplySrc.C102_meets SimplySrc.C102_calm_needed SimplySrc.C102_info_needed','')
c('C103','proved','SimplySrc.C103_lines_read SimplySrc.C103_never_dies SimplySrc.C103_stored SimplySrc.C103_range SimplySrc.C103_meets','')
c('C104','partial','XD.C104_unchanged_partial XD.C104_reassign_partial XDW.C104_refuted_drop XDW.C104_refuted_maxlen XD.C104_refuted_maxlen_always XDW.C104_refuted_key XDW.C104_meets','false of the code in three ways: drop(n) of too many items raises after dropping all; the assignment of an invalid bound (d.maxlen = -1) raises after the bound has been taken away, while d.maxlen still shows the old one; after an assignment of a key function that raised, copy.copy and pickling use that function and raise. Proved for append, insert, insert_right, remove (nothing changes), and for the other assignments as far as copy.copy and pickling are not concerned')
c('C105','proved','XD.C105_in_step XD.C105_search_sound XD.C105_append XD.C105_search_fails XDW.C105_meets XDW.C105_meets_fails','')
c('C106','proved','XD.C106_never_mixed XD.C106_blocks XDW.C106_meets XDW.C105_meets','')
c('C107','proved','SB.C107_loop_ends SB.C107_meets','')
c('C108','proved','Simp.C108_nothing_lost Simp.C108_misses_at_most Simp.C108_maxlen_one Simp.C109_refuted','C109_refuted is also the case that meets the hypotheses of C108_misses_at_most')
c('C109','partial','Simp.C109_second_loop_partial Simp.C109_refuted Simp.C109_meets','false of the code: when the loop has found the buffer empty, the source thread may store the last item and set the stop event before the loop looks at the event; the loop ends with an item unread (C109_refuted, the documented example itself, ends after nine of ten numbers). True: running the loop again gives the rest; and C108')
c('C110','proved','ObjSB.C110_nothing_lost HttpSrc.C110_meets','')
c('C111','proved','HttpSrc.C111_no_hole HttpSrc.C111_consumer HttpSrc.C111_consumer_no_auto_drop HttpSrc.C111_meets HttpSrc.C111_meets_no_auto_drop','')
c('C112','proved','LineSrc.C112_lines LineSrc.C112_consumer LineSrc.C112_range LineSrc.C112_meets','')
c('C113','partial','LineSrc.C113_refuted LineSrc.C112_consumer','false of the code: readline() gives empty lines for ever after the last line, each is numbered and stored, so for every file and every n there is an execution after which n items are retained. What the buffer then holds is C112')
c('C114','partial','NSB.C114_refuted NSB.C114_refuted_two NSB.C115_one_reader NSB.C115_part_of_stored','false of the code: stop() forgets the reader, so the first call after it starts again at the oldest item retained; and two threads making their first call at the same time make a reader each. What holds is C115')
c('C115','proved','NSB.C115_part_of_stored NSB.C115_one_reader NSB.C115_nothing_missing NSB.C115_returns NSB.C115_meets','')
c('C116','partial','SB.C116_refuted SB.C117_short_session','false of the code: next(reader) returns None when nothing new is stored, so n calls give fewer than n items. What holds is C117: nothing is lost, the items come with later calls')
c('C117','proved','SB.C117_short_session SB.C117_from_source NSB.C117_next_short_session SB.C117_meets SB.C117_bound_needed','')
c('C118','proved','SB.C118_part_of_stored SB.C118_all_retained SB.C118_unbounded SB.C118_short_session SB.C118_no_auto_drop SB.C118_meets','')
c('C119','proved','SB.C119_part_of_stored SB.C119_all_retained SB.C119_meets','')
c('C120','proved','XD.C120_insert XD.C120_remove XD.C120_drop XD.C120_reassign XDW.C120_meets','')
c('C121','proved','SB.C121_range SB.C121_complete SB.C121_ends SB.C121_meets SB.C121_meets_drop','')
c('C122','proved','C122_new_items C122_meets','')
c('C123','proved','RW.C123_no_deadlock RW.C123_everyone_finishes C30_terminates RW.C123_meets','')
c('C124','proved','C124_strict C124_meets','')
c('C125','proved','C125_peek_default C125_meets','')
c('C126','proved','SB.C126_info SB.C126_meets','')
c('C127','proved','Src.C127_new_readers Src.C127_closed_once Src.C127_meets','')
c('C128','proved','JSB.C128_room SB.C128_next JSB.C128_meets SB.C43_careful_meets','')
c('C129','proved','SR.C129_closed_exact SR.C129_meets','')
c('C130','proved','ASB.C130_meanwhile ASB.C130_retained ASB.C130_received ASB.C130_false ASB.C130_true ASB.C130_resumes ASB.C130_meets ASB.C130_meets_consumer ASB.C130_meets_resumes','')
c('C131','proved','JSB.C131_before_start JSB.C131_meets','')
c('C132','proved','C132_in_order C132_split C132_appended C132_nothing_missing LMW.C132_meets','')
c('C133','proved','SB.C133_exceptions SB.C133_thread_exceptions NSB.C133_next_raises SB.C133_meets SB.C133_meets_thread','')
c('C134','proved','SB.Forever.C134_stop_closes SB.Forever.C134_death_closes SB.Forever.C134_reads_on SB.Forever.C134_loop_gets_all SB.Forever.C134_loop_ends SB.Forever.C134_served Counter.C134_counter SB.C134_meets SB.C134_meets_on Counter.C134_counter_meets','Infinite executions (Spec/Run); fairness is a hypothesis on the scheduler: whoever can go on gets another turn.')
c('C135','proved','DSB.C135_runs_on DSB.C135_del_harmless DSB.C135_is_stop DSB.C135_meets DSB.C135_meets_del','Reference counting is modelled as: references of the program, frames of calls in progress, running threads.')
c('C136','proved','JSB.C136_failed_start JSB.C136_meets','')
c('C137','proved','Src.C137_started_once Src.C137_mk_reader Src.C137_meets Src.C137_mk_reader_meets','')
c('C138','proved','Src.C138_close Src.C137_meets','')
c('C139','proved','PyObj.C139_wraps PyObj.C139_validation PyObj.C139_meets','')
c('C140','proved','RObjs.C140_reader_info RObjs.C140_meets','')
c('C141','proved','MSrc.C141_by_turns MSrc.C141_after_first MSrcW.C69_example MSrcW.C69_first_alone_example','')
c('C142','proved','C142_interrupted_inside C142_meets','')
c('C143','proved','Simp.C143_none_skipped Simp.C52_meets','')
c('C144','proved','LineSrc.C144_before LineSrc.C144_open LineSrc.C144_closed','')
c('C145','proved','HttpSrc.C145_not_open HttpSrc.C145_close HttpSrc.C145_open HttpSrc.C145_time','')
c('C146','proved','SimplySrc.C146_functions SimplySrc.C146_read SimplySrc.C146_file_before SimplySrc.C146_file_open SimplySrc.C146_file_closed','')
c('C147','proved','Counter.C147_not_open Counter.C147_open Counter.C147_calm','')
c('C148','proved','ObjSrc.C148_is_source ObjSrc.C148_untouched ObjSrc.C148_fresh_start ObjSrc.C148_info ObjSrc.C148_never_dies ObjSrc.C148_to_consumer Counter.C148_meets_before','Concrete case: Counter.C149_meets.')
c('C149','proved','Counter.C149_data Counter.C149_all_delivered Counter.C149_loop Counter.C149_info Counter.C149_never_dies Counter.C149_meets','')
c('C150','proved','RW.C150_writer_enters RW.C150_writer_done RW.C150_sections_end RW.C150_reader_enters RW.C150_one_writer RW.C150_readers_may_starve RW.C150_meets','Strong fairness is an assumption on the scheduler; nested reader sections (which range makes) are excluded because they can deadlock, C30.')
c('C151','proved','SB.C151_no_effect SB.C151_when SB.C151_loop_again SB.C151_meets','')
c('C152','proved','GSB.C152_iter_does_nothing GSB.C152_session GSB.C152_not_started GSB.C152_outcomes GSB.C152_part_of_stored GSB.C152_unbounded GSB.C152_gets_all GSB.C152_ends GSB.C152_drains GSB.C152_never_stuck GSB.C152_meets GSB.C152_meets_not_started GSB.C152_meets_all GSB.C152_meets_end','')
c('C153','proved','C153_seek C153_reads_on C153_misses_nothing C153_take_over C153_meets','')
c('C154','proved','JSB.C154_join_returns JSB.C154_drain Src.C154_last_close Src.C154_loops_end GSB.C154_iter_gets_all GSB.C154_iter_ends JSB.C154_meets Src.Witness.C154_meets GSB.C154_meets','infinite executions with explicit fairness hypotheses; lassos meeting all hypotheses in Props/Fair2Witness.lean (JSB.C154_meets, Src.Witness.C154_meets, GSB.C154_meets)')
c('C155','proved','ObjSB.C155_one_sequence ObjSB.C155_sessions_go_on ObjSB.C155_accounted Quick.C155_info Quick.C155_list Quick.C155_list_exhausted Quick.C155_list_stored Quick.C155_idx Quick.C155_meets Quick.C155_lost_item Quick.C155_idx_meets','C155_one_sequence holds of every execution; the others of settled ones (what happens in unsettled ones is C64_refuted)')
c('C156','proved','XD.C156_search XD.C156_given XD.C156_tied XD.C156_history XD.C156_remake XDW.C156_ties XDW.C156_meets XDW.C156_meets_tied XDW.C156_meets_history','Model/Cost.lean lists the calls; Proofs/Cost.lean proves that its results are those of Model/Raising.lean and Model/SortedDeque.lean. Not counted: the comparisons of sorted(), and the identity shortcut of == on containers')
c('C157','proved','SB.C157_never_stuck SB.C157_bounded SB.Forever.C157_ends SB.C157_meets SB.C157_meets_raise SB.C157_meets_fair','The bound 10 rests on the fact that line 277 (the second stop() of a start()) is never reached')
c('C158','proved','SB.C158_never_stuck SB.C158_bounded SB.Forever.C158_ends SB.C158_meets SB.C158_meets_fair','The waiting of drop and of the read for the reader-writer lock is in the lock properties (C28-C32, C150)')
c('C159','proved','LSB.C159_as_if_launched LSB.C159_never_closed LSB.C159_looks_started LSB.C159_nothing_arrives LSB.C159_stays_empty LSB.C159_meets LSB.C159_opened_twice','A finding: the source stays open and is_running says True after a start() that raised')
c('C160','proved','SD.C160_calls SD.C160_searches SD.C160_membership SD.C160_meets','the keys themselves must not change, so the default identity key on changing items is left out')
c('C161','proved','IterSD.C161_deque IterSD.C161_each_once IterSD.C161_collection IterSD.C161_insert_behind IterSD.C161_meets IterSD.C161_meets_reversed IterSD.C161_collection_reversed IterSD.C161_twice_and_left_out IterSD.C161_behind_meets','')
c('C162','proved','SB.C162_from_any_moment SB.C162_attached SB.C162_meets SB.C162_meets_bounded','')
c('C163','proved','FSB.C163_one_step FSB.C163_only_the_lock_blocks FSB.C163_consumer FineW.C163_meets FineW.C163_meets_drop','')
c('C164','proved','FSB.C164_writer_returns FSB.C164_reader_returns FSB.C164_pauses FSB.C164_stop_closes FSB.C164_death_closes FSB.C164_reads_on FSB.C164_loop_gets_all FSB.C164_loop_ends FSB.C164_served FineW.C164_meets','')
c('C165','proved','ISB.C165_as_if ISB.C165_consumer ISB.C165_left_open ISB.C165_after ISB.C165_early ISB.C165_next_start ISB.C165_meets_sleep ISB.C165_stale_next ISB.C165_meets_open ISB.C165_opened_twice ISB.C165_meets_both','')
c('C166','proved','SB.C166_conserved SB.C166_forward SB.C166_merge SB.C166_consumer SB.C166_old_session SB.C166_meets SB.C166_meets_lost','')
c('C167','proved','SB.Forever.C167_gets_all SB.Forever.C167_reads_on Counter.C167_counter SB.C167_meets SB.C167_drops_needed Counter.C167_counter_meets','')
c('C168','proved','MSB.C168_stream_buffer MSB.C168_in_order MSB.C168_moved MSB.C168_is_stopped MSB.C168_ends_with_its_session MSB.C168_loop_ends MSB.C168_meets MSB.C168_meets_ends MSB.C168_late_item','C168_late_item: a call of next that has looked up the old buffer when the reader is moved hands out an item of the old session after attach_reader has returned. C168_loop_ends allows for a read of the old buffer pending.')
c('C169','partial','MSB.C169_refuted MSB.C169_ends_with_its_session_partial MSB.C169_meets','False between the two assignments of attach_reader (C169_refuted); proved of every step outside a call of attach_reader on the reader.')
c('C170','proved','SB.C170_nothing_retained SB.C170_nothing_refused SB.C170_never_reads SB.C170_never_starts SB.C170_meets_auto SB.C170_meets_manual SB.C170_meets_never','A negative maxlen is modelled as the statement 287-295 raising (the action bufRaise) in each start().')
c('C171','proved','AgedCh.C171_as_if_unchanged AgedCh.C171_each_once AgedCh.C171_meets','Items are objects, == and the key function are replaced by others at any moment; reads only (range, head, tail and assignments of last_item: see C175).')
c('C172','partial','AgedCh.C172_exactly_partial AgedCh.C172_refuted_skipped AgedCh.C172_refuted_twice AgedCh.C172_refuted_stuck AgedCh.C172_meets','False of the code: three refutations. What holds instead is proved: the exact outcome of every append, drop and read in every history with changing items. With the keys of unread items kept it holds, see C171.')
c('C173','proved','ASB.C173_as_if ASB.C173_first_none ASB.C173_dies ASB.C173_data ASB.C173_meets ASB.C173_meets_user ASB.C173_meets_accepted ASB.C173_meets_full ASB.C173_meets_stopped','Which numbers time.sleep rejects is not modelled: the exception is any.')
c('C174','proved','NCons.C174_as_if NCons.C174_in_order NCons.C174_read NCons.C174_loop NCons.C174_own NCons.C174_meets_loop NCons.C174_meets_user NCons.C174_meets_read NCons.C174_meets_reset NCons.C174_meets_own','Which values time.sleep rejects is not modelled: what it raises is part of the setting.')
c('C175','proved','AgedCh.C175_as_if_unchanged AgedCh.C175_meets AgedCh.C175_refuted_changed','Items are objects, == and the key function are replaced by others at any moment. The last theorem: without the condition on the keys it is false.')
c('C176','proved','AttrCh.C176_no_effect AttrCh.C176_shows AttrCh.C176_meets AttrCh.C176_not_expected','What the code does; the last theorem: it is not the semantics one may expect of the attributes.')
c('C177','proved','WSB.C177_as_if WSB.C177_left_alone WSB.C177_at_once WSB.C177_not_opened WSB.C177_consumer WSB.C177_meets WSB.C177_meets_user WSB.C177_meets_left_alone','All sources have the same key function.')
