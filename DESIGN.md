# stream2py: formal model in Lean 4 — design

## 1. Shape of the model

All Lean modules are under `lean/Verif/`. `Verif.lean` imports the `Props` files; everything else comes in through them.

| layer | files | contents |
|---|---|---|
| Python runtime fragment | `Py.lean` | exceptions as values, `bisect`, bounded `collections.deque`, `itertools.islice`, stable `sorted` |
| model | `Model/*.lean` | the code; every definition cites the lines it models and says where it simplifies |
| specification | `Spec/*.lean` | naive definitions (linear scans over plain lists, logs, positions, observations). They import no model file |
| proofs | `Proofs/*.lean` | invariants, refinements, helper lemmas |
| properties | `Props/*.lean` | the theorems named in `MANIFEST.json`, with non-vacuity examples beside them; `Props/*Witness.lean` holds the concrete executions of the concurrent machines and the refutations |

Model files and what they model:

| file | models |
|---|---|
| `Model/SortedDeque.lean` | `utility/sorted_collection.py`, `utility/sorted_deque.py` |
| `Model/Raising.lean` | the same two files again, with key functions and comparisons that raise, invalid bounds, `_given_key`; `Proofs/RaisingLink.lean` proves that both models agree where nothing raises |
| `Model/Cost.lean` | the same two files a third time, with the list of the calls of user code (key functions, `<`, `==`) each operation makes; `Proofs/Cost.lean` proves that its results are those of `Model/Raising.lean`. Not listed: the comparisons `sorted` makes, the `is` shortcut of `in`/`index`; the cost of positional access to a deque is not modelled |
| `Model/BufferReader.lean` | `buffer_reader.py`: bodies of `read`, `peek`, `range`, `head`, `tail`, cursor, per-reader settings |
| `Model/Channel.lean` | `_SourceBuffer` (`stream_buffer.py` 26–78): one buffer, any number of readers, critical sections in any order |
| `Model/Consumer.lean` | `BufferReader.__next__`, `__iter__`, `read(blocking=True)` as threads beside a channel and a stop event; a loop can be left at its body or during its sleep (`break`, `return`, an exception) |
| `Model/RWLock.lean` | `utility/reader_writer_lock.py`, the lock context managers of `utility/locked_sorted_deque.py`; one step per statement |
| `Model/RWInterrupt.lean` | the same lock with exceptions raised from outside (Ctrl-C) between any two statements or out of a blocking acquire |
| `Model/StreamBuffer.lean` | `StreamBuffer` (`stream_buffer.py` 81–295): heap of stop events, buffers, threads; `start`, `stop`, `_run`, `next`, `mk_reader`, `attach_reader`, `drop`, … one step per statement that can interleave |
| `Model/Linear.lean` | reader and writer calls executed access by access under the lock (`buffer_reader.py`, `sorted_deque.py`, `locked_sorted_deque.py`), with invocations and returns recorded |
| `Model/Fine.lean` | `StreamBuffer` once more, with the calls of `Model/StreamBuffer.lean` on buffers and readers executed as in `Model/Linear.lean`; C163 proves that the single steps of `Model/StreamBuffer.lean` are no loss |
| `Model/Join.lean` | `StreamBuffer.join` and callers waiting in it |
| `Model/Launch.lean` | `StreamBuffer.start` with its last statement, the launch of the thread, raising |
| `Model/Interrupt.lean` | `StreamBuffer.start` left by an exception from outside (Ctrl-C) at any statement |
| `Model/Aged.lean` | `SortedDeque`/`SortedCollection` over items whose key, equality and order change between the calls |
| `Model/AgedReader.lean` | a session buffer with readers over items that change at any moment (the readers hand out the objects of the buffer) |
| `Model/Nap.lean` | the stream buffer with a sleep time that `time.sleep` rejects |
| `Model/ReaderNap.lean` | consumers whose readers may get sleep times that `time.sleep` rejects |
| `Model/Settings.lean` | readers with their public attributes and the two dicts of read arguments |
| `Model/Swap.lean` | the stream buffer when other sources are assigned to `source_reader` |
| `Model/Iterate.lean` | `SortedCollection.__iter__`, `__reversed__`: iterators of deques (change counters) and lists (positions) while the sequence is used |
| `Model/ReaderObjs.lean` | what reader objects hold besides the cursor, `mk_reader`, `attach_reader` |
| `Model/SourceObj.lean` | a stream buffer with the source object it was made for: answers come from the object's state |
| `Model/Counter.lean` | `examples/source_reader.py` `SimpleCounterString` as such an object |
| `Model/StreamSource.lean` | `stream_source.py` `StreamSource`, `BufferReader.close` |
| `Model/SourceThreads.lean` | the same executed statement by statement by any number of threads |
| `Model/SourceReader.lean` | `source_reader.py`: `closed`, iteration, `QuickSourceReader`; iteration of `StreamSource` |
| `Model/Simply.lean` | `simply.py` `mk_stream_buffer` |
| `Model/SimplySource.lean` | `simply.py` `SimplifiedSourceReader` with the functions given by the user, as a source object; the documented file example |
| `Model/Misc.lean` | sleep time of `StreamBuffer`, `util.py` `ContextualizeCall`, `sources/http.py` |
| `Model/HttpSource.lean` | `HTTPResponseReader` as a source object: response pieces, clock, decoding |
| `Model/LineSource.lean` | `LineSourceReader` of the package documentation (`stream2py/__init__.py`) as a source object |
| `Model/NextReader.lean` | what `next(stream_buffer)` and `stream_buffer()` return (`stream_buffer.py` 160–163, 302–305), by any number of threads |
| `Model/Mover.lean` | `attach_reader` (`stream_buffer.py` 76–78, 207–218) assignment by assignment beside `BufferReader.__iter__`, `__next__` that are in progress |
| `Model/IterBuffer.lean` | `for x in stream_buffer` (`stream_buffer.py` 156–158): the generators it makes, by any number of threads |

Conventions:

* An operation that may raise returns `Except PyErr α` next to the new state; the state component is what Python has
  mutated before the exception left the function.
* Keys: any type with a decidable `<`; theorems assume a linear order unless they say otherwise (C02 needs only a
  transitive relation). Python's `None` as a probe key is `Option.none`, comparing with it is a `TypeError`.
* Items: any type with `==` (`BEq`), reflexive because CPython's containers compare by identity first.
* The key function is a pure function of the item; its behaviour on `None` is a separate parameter
  (it matters for `range(only_new_items=True)`). In the stream buffer machine it may also raise on any item (`keyRaise`).
* Concurrent machines: `step : State → Act → Option State`, `exec` folds it over a list of actions. The list is the
  schedule *and* the behaviour of the environment (what the source returns or raises, which API calls come when). A theorem
  about every list therefore covers every schedule, source and user. No bound on length, threads, readers, sessions.
* `log` fields are ghost: they record observations (`Spec/Trace.lean`) and are never looked at by a step.

Three layers of concurrency, each justified by the one before:

1. `RWLock`: any number of threads, arbitrary scheduler. Critical sections exclude each other as they should and each
   reader section sees one snapshot (C28–C32). `Linear` runs the bodies of all calls access by access on top of it; C67 proves that
   every execution is linearizable with respect to `Channel`, so critical sections may be taken as atomic.
2. `Channel`, `Consumer`: one buffer, any number of readers, atomic critical sections in any order.
3. `StreamBuffer` and what is built on it. `Proofs/Session.lean` shows that what happens to one session buffer in the big
   machine is a run of the consumer machine, so C11–C27 hold of the readers of every session. `Fine` runs the whole stream buffer
   with its calls statement by statement; C163 proves that every such execution is one of `StreamBuffer`.

**Settled executions.** `stop()` sets the stop event, sleeps one second and does not wait for the thread. A thread that is
inside `source.read()` longer than that outlives the session, then reads `self._stop_event` and `self.source_buffer` of the
*next* session. Many expected properties fail for such executions (refuted on concrete schedules). `Settled` says: whenever a
`start()` gets past its stop phase, earlier threads have ended. It is not something users can see, so C66 proves that it
follows from what they can do: call `join()` before starting again, or start once (`C66_careful_settled`,
`C66_one_start_settled`).

## 2. Plan per property

Method: `ind` = induction over operations or schedules with an invariant; `ref` = refinement to a specification machine;
`cex` = the stated property is false of the code, its negation is proved on a concrete witness (`…_refuted`) and the strongest
true version as `…_partial`.

| property | modelled in | how |
|---|---|---|
| C01 sorted, aligned, bounded | SortedDeque | ind over all public calls, including raising ones |
| C02 append | SortedDeque | exact characterisation, any transitive `<` |
| C03–C05 find*, range, in/index/count | SortedDeque | bisect correctness by induction on the interval, then equality with `filter`/`find?`/`countP` of `Spec/Sorted` |
| C06, C07 insert/remove/drop | SortedDeque | list equations |
| C08 newest `maxlen` items | SortedDeque, Channel | ind: contents = last `maxlen` of the accepted log |
| C09, C72 construct/copy/clear/resize, re-key | SortedDeque | equations; cex in C72: `d.key = f` loses the bound |
| C10 find_last_gt | SortedDeque | equation |
| C11 window semantics | Channel | ref to `Spec/Window` |
| C12, C13 no repeat, no gap | Channel | ref to positions in `Spec/Log`, then ind |
| C14, C15 independence, peek | Channel | equations on states |
| C16–C24, C73, C74 read/range/head/tail details | BufferReader | equations against `Spec/Window`; cex in C20, C22, C73 (peek default), C74 (strict_n) |
| C25–C27 next / for / blocking read | Consumer | ind with ghost observations; cex in C26 (item between last read and stop event is lost) |
| C28–C32 lock | RWLock | accounting invariant over program counters (linear arithmetic), progress measure; cex in C30 (nested readers + writer) |
| C33–C44, C58, C59, C75–C79 life cycle | StreamBuffer | ind over schedules with one big invariant, log lemmas; cex where a thread outlives the restart and others |
| C45–C48 StreamSource | StreamSource | ind over call sequences and schedules; cex double close, reopening, readers without `onclose` |
| C49, C50, C80, C81 SourceReader | SourceReader | ind; cex plain subclasses, StreamSource iteration |
| C51–C53, C82 mk_stream_buffer | Simply | simulation by the StreamBuffer machine, ind; cex in C82 (restart resets the counter), C52 (`(n, None)`) |
| C54 sleep time | Misc | case analysis over Python values |
| C55 ContextualizeCall | Misc | ind on call structure; cex wrapped wrapper, attribute `func`, validation |
| C56, C60, C61, C83 HTTP | Misc, StreamBuffer | case analysis, ind; cex in C56, C60, C61 |
| C57 keys over a session | SortedDeque | ind; cex after `drop` to empty |
| C62 reader describes its session | ReaderObjs | ind; cex after `attach_reader` |
| C63, C84 source to consumer | StreamBuffer + Consumer | ind joining log, buffer and consumer observations |
| C64 source objects, counter example | SourceObj, Counter | simulation by the StreamBuffer machine, ind on calls of one thread; cex without `Settled` |
| C65, C66 join, careful users | Join | ind; C66 reduces careful executions to settled ones |
| C67 linearizability | Linear | ind: simulation of the access-by-access machine by Channel, with the history of calls |
| C68 shared reader | Linear | false: a run in which two threads get the same item, whose history has no linearization; true when calls on a reader do not overlap (C67) |
| C69 concurrent StreamSource | SourceThreads | false in six ways (witness schedules); calls that do not overlap: simulation by StreamSource; after a first open_reader: invariant |
| C70 interrupts | RWInterrupt | interrupts inside sections: simulation by RWLock (with or without the data); elsewhere false: lock-out invariant, witness schedules |
| C71 HTTP stream | HttpSource, SourceObj, SessionView | the C64 theorems for orderly source objects (the read answers are closed forms of pieces and clock) under `Calm` (no thread alive at `start()`), which implies `Settled`; invariant on the number of opens; witnesses that the conditions are needed |
| C85 a session ends only for a reason | StreamBuffer | invariant carrying the actions so far; cex without `Settled` |
| C86 keeps reading | StreamBuffer | potential function on the thread's position |
| C87, C88 source objects, counter, careful users | SourceObj, Counter, SessionView | the C64 theorems under `Calm` |
| C89 stop then join | Join | potential function, C38 |
| C90 exception ends the session | StreamBuffer | invariant (past the loop), potential function |
| C91 drop what was received | StreamBuffer, SessionView | C63 (never behind what is retained) with C33 |
| C92, C93 the loop gets everything | StreamBuffer, Consumer, SourceObj, Counter | potential of the loop (2 per item, distance to next read), C63/C91; C88 |
| C94 stored keys increase | StreamBuffer, SortedDeque | induction with 'last stored = last of the buffer' |
| C95 served | StreamBuffer, Consumer | the newest item is never evicted by an append, so 'something unread' is stable; distance to the next read |
| C96, C97 keeping up, falling behind | StreamBuffer, Consumer | the cursor is the last item handed over; C34, C94; C92's potential |
| C98 drain after join | StreamBuffer, Consumer, JoinSB | a joined session's buffer is frozen; potential 2 per unread item |
| C99 only-new readers | BufferReader, Channel | invariant: handed ++ unread is a sublist of the accepted items; each only-new answer is a sublist (prefix) of the unread items |
| C100 mk_stream_buffer, whole path | Simply, StreamBuffer, Consumer | every execution of the with statement is one of the stream buffer below it (`path`), with the same consumer actions; then C51 and C63/C92 |
| C101 StreamSource, whole path | StreamSource, StreamBuffer, Consumer | the source starts its buffer once, so the execution below is settled (C66); then C84, C78, C77, C38 |
| C102 instances of open_stream | SimplySource, SourceObj, StreamBuffer | the calls on the user's functions, with the instance they are given, follow the calls on the source, which follow the protocol (C78) |
| C103 documented file example | SimplySource, SourceObj, BufferReader | the file reader is an orderly source object (C64/C87); progress from C86; range from C21 |
| C104–C106 key functions and comparisons that raise | Raising | ind over all calls, raising or not: keys in step with items; a bisection that returns has looked at both neighbours, whatever the answers; `sorted` assumed to return a rearrangement whose neighbours it has compared (shown for insertion sort); cex in C104 |
| C107 a loop over a finished session ends | LoopEnd | measure 2 * unread + position; buffers only shrink after the close |
| C108, C109 the documented drop loop | DocLoop | C91 and C51 along the path of the stream buffer below; the end of the session can only be a raising read (C85), which happens only while there is room; cex: the example itself |
| C110 data read before an exception | Broken | C40/C64 without the hypothesis that read never raises; an exception is the last answer of a thread |
| C111 HTTP with errors | Broken | C110, the answers of HTTPResponseReader.read up to the first exception |
| C112, C113 LineSourceReader | LineSource, LineGrowth | C110, the answers of LineSourceReader.read; C04 for range; growth by induction on the number of reads |
| C114, C115 `next(stream_buffer)` | NextReader | the readers made at line 162 as readers of the session; each execution is one of the StreamBuffer machine, so C63 applies; invariant for a single caller |
| C116, C117 recording loop | ShortSession | C96 with a bound on what was stored |
| C118, C119 any way of reading | PlainRead | the calls on a session's buffer as a history of Model/Channel.lean (C63, C99 for histories); retained everything now means retained everything before |
| C120 calls that return | RaisingOk | by cases on the calls; bisection ends between two keys it has looked at |
| C121 looking back | Past | what is retained is a suffix of what was stored (C33, C34), keys stored increase (C94), range on the retained items (C11) |
| C122 only_new_items | Kin | cases of C21 (no cursor) and C20 (cursor, key(None) raises) |
| C123 no re-entry, no deadlock | Kin2 | a history without nesting keeps all nesting depths 0, then C30 |
| C124 strict_n | Kin | reader = linear scan (C11), cases on the number of unread items |
| C125 peek default | Kin | case analysis on the call |
| C126 source_reader_info | Kin2 | the buffer is not empty once something was stored (C94), sourceBuffer changes in start() only |
| C127 readers closed once | Kin2 | invariant on the numbers of readers; C45 |
| C128 join before restart | Kin3 | careful executions are settled (C66), then C33, C44; C43 |
| C129 closed | Kin3 | induction over the history |
| C130 auto_drop assigned at run time | AutoDrop | machine with the attribute as state; per-step lemmas of C33, C34, C63; invariant: nothing lost yet, or room whenever the thread holds an item |
| C131 never started | Before | invariant: nothing exists |
| C132 sharing a reader by turns | SharedReader | linearization of C67 restricted to the calls on the reader, which are ordered in the history; then C12, C63 |
| C133 what can be raised | Errors | invariant over the log |
| C134 fair infinite executions | Fair, FairWitness | by contradiction: an infinite fair run gives the finite step bounds of C77, C86, C90, C92, C95, C93 any number of turns; witnesses are lasso-shaped runs |
| C135 forgotten stream buffer | Forget | machine with `held`/`gone` on top of SB; `__del__` enabled only when nothing holds the object; invariant of a lone running thread |
| C136 failed start | FailedStart | invariant of what a failed start leaves |
| C137-C143 true parts of C46, C47, C55, C62, C69, C70, C52 | TrueParts | combined from the partial theorems; C138 exact |
| C144-C147 source readers used directly | Direct, Spec/Direct | induction over the history of calls |
| C148, C149 StreamSource objects | ObjSource, ObjSourceWitness | the source's execution projects to a stream buffer started once for the object |
| C150 the lock is given to those who wait | RWLive, RWLiveWitness | infinite executions, strong fairness; a thread that stays at a statement is blocked for ever, its blocker too, by cases along the order of the locks no statement is left; lasso for the starving reader |
| C151 loops that are broken off | LoopLeft, LoopLeftWitness | the step `leave` of the consumer; C63 and C92 for what comes after |
| C152 `for x in stream_buffer` | IterBuffer, IterWitness | machine of generators over the stream buffer (Model/IterBuffer); the outcomes of a generator are the events of its reader (`Fit`), then C63, C92, C98, C107 |
| C153 moving the cursor | Seek | the induction of C99 from any reachable state; take-over by a simulation with the two readers exchanged |
| C154 nothing hangs | Props/Fair2.lean | infinite runs; by contradiction from the step bounds of C89, C98, C101, C107, C152 |
| C155 QuickSourceReader is not rewound | Model/QuickSource.lean, Props/Quick.lean | the answers in log order are one run of read (invariant over every step); answers of the sessions concatenate to it because in settled executions only the newest thread reads |
| C156 calls of user code | Model/Cost.lean, Proofs/Cost.lean, Props/Cost.lean | writer monad; induction on the bisection with the length halved; refinement to Model/Raising.lean |
| C157 start() ends | Props/StartEnds.lean | decreasing measure on the statements of start(); the event found set at the first check stays set, so the second check never stops again |
| C158 calls end | Props/CallsEnd.lean | decreasing measure per caller; with C157 the lock is free infinitely often, so strong fairness gives the step |
| C159 launch fails | Model/Launch.lean, Props/Launch.lean | simulation by the execution in which the thread is launched and never scheduled |
| C160 items that change | Model/Aged.lean, Spec/Noted.lean, Props/Aged.lean | refinement of a list of (noted key, item); the pairs form a deque to which the lemmas of C01–C06 apply |
| C161 iterating | Model/Iterate.lean, Spec/Iterate.lean, Props/Iterate.lean | the deque objects with their change counters refine an observer that took a snapshot; induction on histories |
| C162 a consumer from any moment on | Model/StreamBuffer.lean, Spec/Window.lean, Proofs/Onward.lean, Props/Onward.lean | each step as a call on buffer and readers; invariant on what was handed out since, by induction on the execution after the moment |
| C163 statement-by-statement calls in the whole stream buffer | Model/Fine.lean, Proofs/Fine*.lean, Props/Fine.lean | simulation: the linearization point of each locked call is the single step; invariant linking the calls in progress, the locked buffers (C67) and the single-step state |
| C164 liveness, statement by statement | Model/Fine.lean, Proofs/LinearFair.lean, Proofs/FineSim.lean, Proofs/FineRun.lean, Proofs/Paused.lean, Props/FineLive.lean | the infinite run projects to a fair run of each session's lock (C150) and to a run of the single-step model with pauses, in which the turns of thread and consumer are again fair |
| C165 an interrupted start() | Model/Interrupt.lean, Proofs/Interrupt.lean, Props/Interrupt.lean | simulation by an execution without interruptions, which stops by stop() and lets open() or info raise instead; invariants |
| C166 overlapping sessions: what every execution keeps | Spec/Overlap.lean, Props/Overlap.lean, Props/OverlapWitness.lean | invariant per thread over all executions; what a consumer gets by C118 |
| C167 the loop that drops, for ever | Props/FairDrop.lean, Props/FairDropWitness.lean, Props/FairCounterWitness.lean | if the reads stopped, what is stored would stop growing, be received (C92) and dropped, so the buffer would be empty (C91) and the thread not blocked (C86) |
| C168, C169 a reader moved while it is used | Model/Mover.lean, Spec/Mover.lean, Proofs/Mover.lean, Props/Mover.lean, Props/MoverWitness.lean | the effect of a step on one consumer (quiet, or a prefix of the unread items of one buffer); order and accounting by induction over executions; a measure of statements left |
| C170 settings with which nothing can be delivered | Props/NoRoom.lean, Props/NoRoomWitness.lean | invariants; reference answers on the empty list |
| C171 items that change in a session buffer, unread keys kept | Model/AgedReader.lean, Spec/NotedReader.lean, Props/AgedReader.lean | simulation with a buffer of notes (key of storing, item) |
| C172 consumers that change items do not disturb others (false) | Props/AgedReader.lean, Props/AgedReaderWitness.lean | refuted; exact reference semantics by simulation |
| C173 a sleep time that time.sleep rejects | Model/Nap.lean, Proofs/Nap.lean, Props/Nap.lean | simulation by the machine of C130 with a read() that raises; no step looks at the log; invariants |
| C174 a reader whose sleep time is rejected | Model/ReaderNap.lean, Props/ReaderNap.lean | simulation by the consumers that may give up; stepwise computation; induction on the unread items |
| C175 items that change in a session buffer, all calls | Model/AgedReader.lean, Spec/NotedCalls.lean, Props/AgedReaderAll.lean | simulation of every reader call by the one on a buffer of notes |
| C176 assigning to the attributes of a reader | Model/Settings.lean, Spec/Settings.lean, Props/Settings.lean | simulation by the channel of C11 |
| C177 another source is assigned while the stream runs | Model/Swap.lean, Spec/Swap.lean, Props/Swap.lean | projection to the stream buffer with one source; invariants on the calls in progress |

## 3. What the proofs found

Properties a user would expect and that are false of the code at this commit, each with a machine-checked witness:

* C72: assigning `d.key` rebuilds the deque without its bound.
* C73: the `peek` default given to a reader is not used by `read()`.
* C74: `read(n, strict_n=True)` with exactly `n` unread items returns nothing.
* C20/C22: `range(only_new_items=True)` depends on the key function raising `TypeError` on `None`.
* C26: an item appended between the last read of a `for` loop and its look at the stop event is lost (C25, C27 record the same
  for `next` and blocking reads).
* C30: `range(only_new_items=True)` takes the reader lock twice; a writer in between deadlocks both for ever.
* C33, C37, C40, C64, C76–C78, C82, C84: a thread that outlives `stop()` reads and stores for the next session, looks at the new stop
  event, closes the source under the new session.
* C75, C79: after a `start()` whose `open()` raised, the old session is gone and `is_running` says True.
* C78: if `source.info` raises, the source stays open and is opened again.
* C43: `next(stream_buffer)` can stay on an old session.
* C44: `auto_drop=False` without `maxlen` dies at the first step (`int < None`).
* C45–C47: closing a reader twice stops the source for others; a closed StreamSource cannot be reopened; readers from
  `mk_reader` cannot be closed.
* C80: `closed` of plain SourceReaders follows only the `with` statement. C81: iterating a StreamSource raises at the first None.
* C52: with `enumerate_data=True`, None reads are stored. C55: see the table. C56: method and body of requests are dropped.
* C91: the documented loop `for x in reader: ...; buffer.drop()` with `auto_drop=False` stalls for ever when a source gives a smaller key after the buffer was
  dropped to empty: the item is accepted, the reader cannot see it, the buffer stays full.
* C57: `drop` to empty lets an older key in. C58: `source_reader_info` is None while the buffer is empty, and may raise while another
  thread restarts the stream.
* C68: two threads calling one reader at once can get the same item. C69: racing `open_reader`/`close` of a StreamSource can make two
  stream buffers (one never stopped), end an open reader's session, raise, or lose a count.
* C70: Ctrl-C while a thread waits for the buffer lock breaks it for good (the release in `finally` runs although nothing was acquired):
  readers are locked out or writers let in beside readers; Ctrl-C inside `drop()` leaves keys and items out of step.
* C71: `HTTPResponseReader.key` is the whole data `(time, piece)`: two reads within one clock reading give the same key if the pieces are equal (e.g. both
  empty, at the end), or a smaller one; the append is refused and the thread ends. And pieces are decoded one by one, so a character cut in two ends it too.
* C113: the documented stream over a file with `maxlen=None` grows for ever (empty lines after the last one are stored).
* C60, C61: an exhausted HTTP response floods the buffer with empty reads; the byte counter stays 0. C62: `attach_reader` keeps
  the old session's info.

## 4. Testing the theorems against wrong programs

`seeded/mutants.py` lists edits of the model that mimic realistic bugs; `tools/mutate.py` applies each to a copy outside
`/verif`, rebuilds the properties next to the edited file (everything, if nothing fails there) with failing proofs cut out, and reports
which theorems no longer prove (directly or because a lemma they need fails). `seeded/LOG.jsonl` has one line per attempt. Theorems that survived a mutant although their claim had become
false were tightened; the log says which.

## 5. Trusted base

* Lean 4.33.0 kernel. No axioms of our own, no `native_decide`, no `bv_decide`. The table below is generated
  (`tools/gen_axioms.py`) from `#print axioms` of every theorem in `MANIFEST.json`.
* Faithfulness of the hand-written model to the Python text (cited line by line) and of the runtime fragment to CPython:
  `list`/`deque`/`bisect`/`islice`/`sorted`, `threading.Lock`, `Event`, `Thread.start/join`, attribute loads and stores being
  atomic under the GIL, generators.
* The English statements in `properties.jsonl` against the Lean statements (use `Spec/` to compare).

Axioms:

<!-- axioms begin -->
* **Classical.choice, Quot.sound, propext** (460 theorems): `C01_sorted_aligned_bounded`, `C02_append`, `C03_find_scans`, `C04_range`, `C05_membership_scans`, `C06_insert`, `C06_remove`, `C07_drop`, `C09_clear_copy`, `C09_resize`, `C09_delkey`, `C10_find_last_gt`, `C11_window_refinement`, `C12_reads_increase`, `C13_positions`, `C13_no_gap`, `C13_no_gap_unbounded`, `C15_peek_same_result`, `C17_read_n`, `C17_read_one`, `C19_no_data`, `C20_only_new_partial`, `C20_only_new_safe_partial`, `C21_rounding`, `C22_nothing_new_partial`, `C23_head_tail`, `C23_empty`, `C24_last_key`, `C28_writer_exclusive`, `C28_writer_not_reader`, `C29_snapshot`, `C29_buffer_snapshot`, `C30_no_deadlock_partial`, `C30_everyone_finishes_partial`, `C30_readers_only`, `C30_refuted`, `C31_no_new_readers`, `C31_no_new_readers_inside`, `C31_readers_share`, `C32_restored`, `C32_no_bad_release`, `C25_stop_is_permanent`, `C25_drains`, `C26_loop_complete_partial`, `C26_loop_after_stop`, `C26_loop_on_stopped`, `chunks_flatten`, `C27_read`, `C27_wait`, `C27_raises_only_strict`, `C27_returns`, `SB.C33_nothing_lost_partial`, `SB.C33_reads_when_room_partial`, `SB.C34_only_eviction`, `SB.C35_mk_reader`, `SB.C35_attach_reader`, `SB.C35_not_started`, `SB.C36_is_same_buffer`, `SB.C36_old_stopped`, `SB.C37_one_reader_partial`, `SB.C38_same_event`, `SB.C38_never_stuck`, `SB.C38_meets`, `SB.C39_closed_once`, `SB.C39_nothing_after_close`, `SB.C39_stopped_before_close`, `SB.C40_stored_in_order_partial`, `SB.C40_decision`, `SB.C40_until_first_bad_key_partial`, `SB.C41_readers_see_stop`, `SB.C41_not_running`, `SB.C42_is_running`, `SB.C42_never_started`, `SB.C43_current_session_partial`, `SB.C43_not_started`, `SB.C43_careful_partial`, `SB.C43_meets`, `SB.C43_careful_meets`, `SB.C44_unbounded_auto_partial`, `SB.C44_no_crash_partial`, `SB.C44_refuted`, `SB.C44_dies`, `SB.C58_info_partial`, `SB.C58_info_any_partial`, `SB.C58_info_once`, `SB.C59_attach`, `Src.C45_stops_with_last_close_partial`, `Src.C45_stops_only_on_last_close_partial`, `Src.C45_open_reader_live_partial`, `Src.C45_stopped_for_all`, `Src.C46_refuted_opened_once`, `Src.C46_refuted_reopened_is_stopped`, `Src.C46_refuted_failed_open_is_final`, `Src.C46_refuted_failed_open_then`, `Src.C46_first_open_partial`, `Src.C47_close_partial`, `Src.C47_refuted`, `Src.C48_configure`, `Src.C48_settings_used`, `Src.C48_buffer_has_settings`, `Simp.C51_never_rejects`, `Simp.C51_first_component`, `Simp.C51_default_key`, `Simp.C52_none_skipped_partial`, `Simp.C52_refuted`, `Simp.C53_always_stopped`, `Simp.C53_can_leave`, `Http.C60_refuted`, `HttpSrc.C111_consumer_no_auto_drop`, `HttpSrc.C111_consumer`, `RObjs.C62_info_partial`, `RObjs.C62_stop_event`, `RObjs.C62_refuted`, `SB.C63_part_of_stored`, `SB.C63_nothing_missing`, `SB.C63_all_retained`, `SB.C63_unbounded`, `SB.C63_meets`, `ObjSB.C64_fresh_start_partial`, `ObjSB.C64_info_of_open_partial`, `ObjSB.C64_orderly_never_dies_partial`, `ObjSB.C64_orderly_all_stored_partial`, `ObjSB.C64_source_object_to_consumer_partial`, `Counter.orderly`, `Counter.C64_counter_data_partial`, `Counter.C64_counter_complete_partial`, `Counter.C64_counter_never_dies_partial`, `Counter.C64_counter_to_consumer_partial`, `Counter.C64_counter_info_partial`, `Counter.C64_meets`, `JSB.C65_join_means_over`, `JSB.C66_meets`, `JSB.C66_careful_settled`, `JSB.C66_careful`, `JSB.C66_old_frozen`, `JSB.C66_source_to_consumer`, `JSB.C66_one_start_settled`, `C67_linearizable`, `C67_waits_only_for_lock`, `LMW.C67_example`, `C67_unlocked_len`, `C67_calls_return`, `LMW.C67_calls_return_meets`, `LMW.C67_nested_deadlock`, `LMW.C68_not_linearizable`, `MSrc.C69_one_at_a_time_partial`, `MSrc.C69_stops_with_last_close_partial`, `MSrc.C69_stops_only_on_last_close_partial`, `MSrc.C69_first_alone_partial`, `MSrcW.C69_example`, `MSrcW.C69_refuted_two_buffers`, `MSrcW.C69_refuted_lost_open`, `MSrcW.C69_refuted_lost_close`, `C70_whole_partial`, `C70_lock_partial`, `HttpSrc.C71_never_dies`, `HttpSrc.C71_body`, `HttpSrc.C71_meets`, `HttpSrc.C71_clock_needed`, `HttpSrc.C71_encoding_needed`, `C74_strict_partial`, `SB.C75_refuted_always`, `SB.C76_own_buffer_partial`, `SB.C76_old_frozen_partial`, `SB.C76_late_drop`, `SB.C77_stop_prompt_partial`, `SB.C78_protocol_partial`, `SB.C78_refuted_info`, `SB.C79_latest_attempt_partial`, `Simp.C82_restarts_partial`, `SB.C84_part_of_read_partial`, `SB.C84_no_auto_drop_partial`, `SB.C84_source_to_consumer_partial`, `SB.C85_ends_for_a_reason`, `SB.C85_runs_on`, `SB.C85_meets`, `SB.C86_keeps_reading`, `SB.C86_keeps_reading_auto`, `ObjSB.C87_fresh_start`, `ObjSB.C87_info_of_open`, `ObjSB.C87_never_dies`, `ObjSB.C87_all_stored`, `ObjSB.C87_to_consumer`, `Counter.C87_counter_data`, `Counter.C87_counter_info`, `Counter.C87_counter_never_dies`, `Counter.C88_meets`, `Counter.C88_counter_completes`, `Counter.C88_counter_delivers`, `JSB.C89_stop_join_returns`, `SB.C90_death_is_final`, `SB.C91_gets_everything`, `SB.C91_no_stall`, `SB.C91_meets`, `SB.C92_loop_gets_all`, `SB.C92_drop_loop_gets_all`, `SB.C92_drop_meets`, `Counter.C93_counter_loop`, `Counter.C93_meets`, `SB.C94_stored_increasing`, `SB.C95_served`, `SB.C96_keeps_up`, `SB.C96_loop_gets_all`, `SB.C97_next_items`, `JSB.C98_drain_after_join`, `JSB.C98_all_stored`, `JSB.C98_meets`, `C99_part_of_accepted`, `C99_increasing`, `C99_misses_nothing`, `Simp.C100_part_of_reads`, `Simp.C100_right_numbers`, `Simp.C100_nothing_missing`, `Simp.C100_loop_gets_reads`, `Src.C101_part_of_read`, `Src.C101_nothing_missing`, `Src.C101_protocol`, `Src.C101_source_closed`, `SimplySrc.C102_one_at_a_time`, `SimplySrc.C102_nothing_left_open`, `SimplySrc.C102_meets`, `SimplySrc.C102_info_needed`, `SimplySrc.C103_lines_read`, `SimplySrc.C103_never_dies`, `SimplySrc.C103_stored`, `SimplySrc.C103_range`, `SimplySrc.C103_meets`, `XD.C104_unchanged_partial`, `XD.C105_search_sound`, `XD.C105_search_fails`, `XDW.C105_meets`, `XDW.C105_meets_fails`, `XD.C106_never_mixed`, `XD.C106_blocks`, `SB.C107_loop_ends`, `SB.C107_meets`, `Simp.C108_nothing_lost`, `Simp.C108_misses_at_most`, `Simp.C108_maxlen_one`, `Simp.C109_second_loop_partial`, `ObjSB.C110_nothing_lost`, `HttpSrc.C110_meets`, `HttpSrc.C111_no_hole`, `HttpSrc.C111_meets`, `HttpSrc.C111_meets_no_auto_drop`, `LineSrc.C112_lines`, `LineSrc.C112_consumer`, `LineSrc.C112_range`, `LineSrc.C112_meets`, `LineSrc.C113_refuted`, `NSB.C115_one_reader`, `NSB.C115_part_of_stored`, `NSB.C115_nothing_missing`, `NSB.C115_returns`, `SB.C117_short_session`, `SB.C117_from_source`, `NSB.C117_next_short_session`, `SB.C117_meets`, `SB.C118_part_of_stored`, `SB.C118_all_retained`, `SB.C118_unbounded`, `SB.C118_short_session`, `SB.C118_no_auto_drop`, `SB.C118_meets`, `SB.C119_part_of_stored`, `SB.C119_all_retained`, `SB.C119_meets`, `XD.C120_insert`, `XD.C120_remove`, `XD.C120_reassign`, `XDW.C120_meets`, `SB.C121_range`, `SB.C121_complete`, `SB.C121_ends`, `SB.C121_meets_drop`, `C122_new_items`, `RW.C123_no_deadlock`, `RW.C123_everyone_finishes`, `C124_strict`, `SB.C126_info`, `Src.C127_new_readers`, `Src.C127_closed_once`, `JSB.C128_room`, `SB.C128_next`, `ASB.C130_retained`, `ASB.C130_received`, `ASB.C130_false`, `ASB.C130_true`, `ASB.C130_meets`, `C132_in_order`, `C132_split`, `C132_appended`, `C132_nothing_missing`, `LMW.C132_meets`, `SB.C133_exceptions`, `SB.C133_thread_exceptions`, `SB.C133_meets_thread`, `SB.Forever.C134_stop_closes`, `SB.Forever.C134_death_closes`, `SB.Forever.C134_reads_on`, `SB.Forever.C134_loop_gets_all`, `SB.Forever.C134_loop_ends`, `SB.Forever.C134_served`, `Counter.C134_counter`, `SB.C134_meets`, `SB.C134_meets_on`, `Counter.C134_counter_meets`, `DSB.C135_runs_on`, `DSB.C135_del_harmless`, `DSB.C135_meets_del`, `JSB.C136_failed_start`, `Src.C137_started_once`, `Src.C137_mk_reader`, `Src.C138_close`, `RObjs.C140_reader_info`, `MSrc.C141_by_turns`, `MSrc.C141_after_first`, `C142_interrupted_inside`, `Simp.C143_none_skipped`, `ObjSrc.C148_untouched`, `ObjSrc.C148_fresh_start`, `ObjSrc.C148_info`, `ObjSrc.C148_never_dies`, `ObjSrc.C148_to_consumer`, `Counter.C149_data`, `Counter.C149_all_delivered`, `Counter.C149_loop`, `Counter.C149_info`, `Counter.C149_never_dies`, `RW.C150_writer_enters`, `RW.C150_writer_done`, `RW.C150_sections_end`, `RW.C150_reader_enters`, `RW.C150_one_writer`, `RW.C150_readers_may_starve`, `RW.C150_meets`, `SB.C151_no_effect`, `SB.C151_loop_again`, `GSB.C152_iter_does_nothing`, `GSB.C152_session`, `GSB.C152_not_started`, `GSB.C152_outcomes`, `GSB.C152_part_of_stored`, `GSB.C152_unbounded`, `GSB.C152_gets_all`, `GSB.C152_ends`, `GSB.C152_drains`, `GSB.C152_never_stuck`, `GSB.C152_meets_end`, `C153_seek`, `C153_reads_on`, `C153_misses_nothing`, `C153_take_over`, `JSB.C154_join_returns`, `JSB.C154_drain`, `Src.C154_last_close`, `Src.C154_loops_end`, `GSB.C154_iter_gets_all`, `GSB.C154_iter_ends`, `JSB.C154_meets`, `Src.Witness.C154_meets`, `GSB.C154_meets`, `ObjSB.C155_sessions_go_on`, `ObjSB.C155_accounted`, `Quick.C155_info`, `Quick.C155_list`, `Quick.C155_list_exhausted`, `Quick.C155_list_stored`, `Quick.C155_idx`, `Quick.C155_meets`, `Quick.C155_lost_item`, `Quick.C155_idx_meets`, `XD.C156_search`, `XD.C156_given`, `XD.C156_tied`, `XD.C156_history`, `XDW.C156_ties`, `XDW.C156_meets`, `SB.C157_never_stuck`, `SB.C157_bounded`, `SB.Forever.C157_ends`, `SB.C157_meets_fair`, `SB.C158_never_stuck`, `SB.C158_bounded`, `SB.Forever.C158_ends`, `SB.C158_meets_fair`, `LSB.C159_as_if_launched`, `LSB.C159_never_closed`, `LSB.C159_looks_started`, `LSB.C159_nothing_arrives`, `LSB.C159_stays_empty`, `SD.C160_calls`, `SD.C160_searches`, `SD.C160_membership`, `IterSD.C161_deque`, `IterSD.C161_each_once`, `IterSD.C161_collection`, `IterSD.C161_insert_behind`, `SB.C162_from_any_moment`, `SB.C162_attached`, `FSB.C163_one_step`, `FSB.C163_only_the_lock_blocks`, `FSB.C163_consumer`, `FineW.C163_meets`, `FineW.C163_meets_drop`, `FSB.C164_writer_returns`, `FSB.C164_reader_returns`, `FSB.C164_pauses`, `FSB.C164_stop_closes`, `FSB.C164_death_closes`, `FSB.C164_reads_on`, `FSB.C164_loop_gets_all`, `FSB.C164_loop_ends`, `FSB.C164_served`, `FineW.C164_meets`, `ISB.C165_as_if`, `ISB.C165_consumer`, `ISB.C165_left_open`, `ISB.C165_after`, `ISB.C165_early`, `ISB.C165_next_start`, `SB.C166_conserved`, `SB.C166_forward`, `SB.C166_merge`, `SB.C166_consumer`, `SB.C166_old_session`, `SB.C166_meets`, `SB.Forever.C167_gets_all`, `SB.Forever.C167_reads_on`, `Counter.C167_counter`, `SB.C167_meets`, `SB.C167_drops_needed`, `Counter.C167_counter_meets`, `MSB.C168_stream_buffer`, `MSB.C168_in_order`, `MSB.C168_moved`, `MSB.C168_is_stopped`, `MSB.C168_ends_with_its_session`, `MSB.C168_loop_ends`, `MSB.C169_ends_with_its_session_partial`, `SB.C170_nothing_retained`, `SB.C170_nothing_refused`, `SB.C170_never_reads`, `SB.C170_never_starts`, `AgedCh.C171_as_if_unchanged`, `AgedCh.C171_each_once`, `AgedCh.C171_meets`, `AgedCh.C172_exactly_partial`, `ASB.C173_as_if`, `ASB.C173_first_none`, `ASB.C173_dies`, `ASB.C173_data`, `NCons.C174_in_order`, `NCons.C174_read`, `NCons.C174_loop`, `AgedCh.C175_as_if_unchanged`, `AgedCh.C175_meets`, `AttrCh.C176_no_effect`, `WSB.C177_consumer`, `WSB.C177_meets`
* **propext** (150 theorems): `C09_copy_reorders_ties`, `C57_refuted`, `C20_refuted`, `C22_refuted`, `C29_atomic_is_channel_step`, `C25_stop_iteration_iff_stopped`, `C25_stop_iteration_race`, `C26_refuted`, `C27_none_only_stopped`, `C27_none_race`, `SB.C33_refuted`, `SB.C34_drop_refused`, `SB.C37_refuted`, `SB.C43_refuted_death`, `SB.C43_refuted_stop`, `SB.C58_refuted`, `SB.C59_meets`, `Src.C46_refuted_witness`, `Src.C46_refuted_failed_witness`, `Src.C47_refuted_witness`, `C50_quick`, `C50_plain`, `Simp.C51_meets`, `Simp.C52_refuted_witness`, `Simp.C52_meets`, `Simp.C53_meets`, `C54_sleep_time`, `PyObj.C55_context_partial`, `PyObj.C55_refuted_nested_witness`, `PyObj.C55_refuted_attribute`, `PyObj.C55_refuted_attribute_witness`, `PyObj.C55_rejects_partial`, `PyObj.C55_refuted_exit_witness`, `C56_request_partial`, `C56_refuted`, `C56_refuted_witness`, `Http.C60_refuted_witness`, `Http.C61_refuted`, `Http.C61_refuted_witness`, `RObjs.C62_refuted_witness`, `Counter.C64_refuted`, `JSB.C65_join_before_start`, `JSB.C65_join_after_failed_start`, `JSB.C65_join_waits_for_last`, `LMW.C67_example_waits`, `LMW.C68_shared_reader`, `MSrcW.C69_refuted_not_started`, `MSrcW.C69_refuted_close_raises`, `C70_refuted_exclusion`, `C70_refuted_exclusion_reader`, `C70_refuted_half_drop`, `C70_refuted_half_drop_find`, `C72_refuted`, `C73_refuted`, `C74_refuted`, `SB.C75_refuted`, `SB.C76_refuted`, `SB.C77_refuted`, `SB.C78_refuted`, `SB.C79_refuted`, `SR.C80_refuted`, `SR.C80_refuted_mixed`, `C81_source_partial`, `C81_refuted`, `Simp.C82_refuted`, `SB.C90_meets`, `SB.C91_increasing_needed`, `SB.C94_meets`, `SB.C95_meets_loop`, `SB.C97_meets`, `C99_meets_bounded`, `Simp.C100_meets`, `XDW.C104_refuted_drop`, `XDW.C104_refuted_maxlen`, `XD.C104_refuted_maxlen_always`, `XDW.C104_refuted_key`, `XDW.C104_meets`, `XDW.C106_meets`, `NSB.C114_refuted`, `NSB.C114_refuted_two`, `SB.C116_refuted`, `SB.C117_bound_needed`, `SB.C121_meets`, `C122_meets`, `RW.C123_meets`, `C124_meets`, `C125_meets`, `SB.C126_meets`, `ASB.C130_meets_consumer`, `ASB.C130_meets_resumes`, `JSB.C131_meets`, `SB.C133_meets`, `DSB.C135_is_stop`, `Src.C137_meets`, `Src.C137_mk_reader_meets`, `PyObj.C139_meets`, `RObjs.C140_meets`, `C142_meets`, `LineSrc.C144_before`, `LineSrc.C144_closed`, `SimplySrc.C146_file_before`, `SimplySrc.C146_file_closed`, `Counter.C147_not_open`, `Counter.C148_meets_before`, `GSB.C152_meets`, `GSB.C152_meets_not_started`, `C153_meets`, `XDW.C156_meets_tied`, `XDW.C156_meets_history`, `SB.C157_meets`, `SB.C157_meets_raise`, `SB.C158_meets`, `LSB.C159_opened_twice`, `SD.C160_meets`, `IterSD.C161_meets`, `IterSD.C161_meets_reversed`, `IterSD.C161_collection_reversed`, `IterSD.C161_twice_and_left_out`, `IterSD.C161_behind_meets`, `ISB.C165_meets_sleep`, `ISB.C165_stale_next`, `ISB.C165_meets_open`, `ISB.C165_opened_twice`, `ISB.C165_meets_both`, `SB.C166_meets_lost`, `MSB.C168_meets`, `MSB.C168_meets_ends`, `MSB.C168_late_item`, `MSB.C169_refuted`, `MSB.C169_meets`, `SB.C170_meets_auto`, `SB.C170_meets_manual`, `SB.C170_meets_never`, `AgedCh.C172_refuted_skipped`, `AgedCh.C172_refuted_twice`, `AgedCh.C172_refuted_stuck`, `AgedCh.C172_meets`, `ASB.C173_meets`, `ASB.C173_meets_accepted`, `ASB.C173_meets_full`, `ASB.C173_meets_stopped`, `NCons.C174_meets_loop`, `NCons.C174_meets_read`, `NCons.C174_meets_reset`, `NCons.C174_meets_own`, `AgedCh.C175_refuted_changed`, `AttrCh.C176_meets`, `AttrCh.C176_not_expected`, `WSB.C177_meets_user`, `WSB.C177_meets_left_alone`
* **Quot.sound, propext** (91 theorems): `C02_append_only_strict`, `C03_find_none`, `C08_newest_accepted`, `C08_increasing`, `C09_construct`, `C57_accepted_increasing_partial`, `C14_readers_independent`, `C14_read_only`, `C15_peek_keeps_cursor`, `C15_peek_repeatable`, `C16_defaults`, `C18_failed_call_keeps_cursor`, `C30_terminates`, `C25_never_blocked`, `SB.C58_refuted_race`, `Src.C45_refuted_double_close`, `SR.C49_quick`, `C50_quick_raising`, `PyObj.C55_call_partial`, `PyObj.C55_refuted_nested`, `PyObj.C55_accepts_partial`, `PyObj.C55_refuted_exit_validation`, `SB.C63_meets_bounded`, `SB.C63_bounded_misses`, `JSB.C65_join_unblocks`, `C67_no_endless_run`, `MSrcW.C69_first_alone_example`, `MSrcW.C69_refuted_session_ended`, `C70_refuted_lockout`, `C72_rekey_partial`, `C73_peek_partial`, `SR.C80_with_partial`, `SR.C80_refuted_witness`, `C81_source_stopped_partial`, `Http.C83_close_idempotent`, `Http.C83_closed_once`, `SB.C85_settled_needed`, `JSB.C89_meets`, `SB.C92_meets`, `SB.C95_meets`, `SB.C96_meets`, `C99_meets`, `Src.Witness.C101_meets`, `SimplySrc.C102_calm_needed`, `XD.C104_reassign_partial`, `XD.C105_in_step`, `XD.C105_append`, `Simp.C109_refuted`, `Simp.C109_meets`, `NSB.C115_meets`, `XD.C120_drop`, `C125_peek_default`, `Src.C127_meets`, `JSB.C128_meets`, `SR.C129_closed_exact`, `ASB.C130_meanwhile`, `ASB.C130_resumes`, `JSB.C131_before_start`, `NSB.C133_next_raises`, `DSB.C135_meets`, `JSB.C136_meets`, `PyObj.C139_wraps`, `PyObj.C139_validation`, `LineSrc.C144_open`, `HttpSrc.C145_not_open`, `HttpSrc.C145_open`, `HttpSrc.C145_time`, `SimplySrc.C146_functions`, `SimplySrc.C146_read`, `SimplySrc.C146_file_open`, `Counter.C147_open`, `Counter.C147_calm`, `ObjSrc.C148_is_source`, `Counter.C149_meets`, `SB.C151_when`, `SB.C151_meets`, `GSB.C152_meets_all`, `ObjSB.C155_one_sequence`, `XD.C156_remake`, `LSB.C159_meets`, `SB.C162_meets`, `SB.C162_meets_bounded`, `ASB.C173_meets_user`, `NCons.C174_as_if`, `NCons.C174_own`, `NCons.C174_meets_user`, `AttrCh.C176_shows`, `WSB.C177_as_if`, `WSB.C177_left_alone`, `WSB.C177_at_once`, `WSB.C177_not_opened`
* **none** (1 theorems): `SR.C129_meets`
* **Quot.sound** (1 theorems): `HttpSrc.C145_close`
<!-- axioms end -->

## 6. Not modelled

* Real time: sleep durations, `time.time`, clocks (a source's timestamps are whatever its object returns). The one second
  in `stop()` is a step of arbitrary length. Liveness is stated as "can go on", as termination measures (so many turns of a thread), or over infinite executions under a fair scheduler (C134; C150 for the lock itself, strong fairness), not as time.
  Liveness claims about machines whose critical sections are single steps (C77, C86, C92, C134, ...) presuppose that the lock lets threads
  in: C150 gives that under strong fairness for executions without nested reader sections, C123 says which nested ones are harmless, and C30
  exhibits the deadlock that `range` (which calls `read` inside its section) can cause when a writer arrives in between.
* Memory, GIL fairness, signals other than as exceptions in lock operations (C70) and in `start()` (C165), interpreter shutdown and daemon threads.
* `__repr__`, pickling (`__reduce__` only as re-construction), logging output, deprecation warnings, docstrings.
* Assignments to public attributes other than those of C130 (`auto_drop`), C176 (the settings of a reader) and C177 (`source_reader`): `source_buffer`, `start_lock`.
* aliases, type annotations; values of
  `auto_drop` other than `True` and `False` (the code tests `is True`, so they behave as `False`); a `buffer_reader_class` other than BufferReader.
* Side effects of user key functions, changing items under the default (identity) key, subclasses overriding methods.
* `pack.py`, `docsrc`, `tests`, notebooks; sources other than `SimpleCounterString`, `HTTPResponseReader` and `LineSourceReader` (they enter as
  arbitrary environments or arbitrary source objects).
