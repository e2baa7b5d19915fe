{"id": "C01", "title": "Sorted deque stays sorted, aligned and bounded", "statement": "After any sequence of public mutations (construct, append, insert, insert_right, remove, drop, clear, change maxlen, change key, copy) of a SortedDeque, including calls that raised, iterating it gives items in non-decreasing key order, every search structure entry is the key of the item at the same position, and len() never exceeds maxlen.", "quantifier": "all key functions, items, maxlen values and finite sequences of mutations, successful or raising", "why_tests_cant": "the invariant must survive every operation sequence; tests sample a handful", "anchors": ["stream2py/utility/sorted_deque.py:SortedDeque", "stream2py/utility/sorted_collection.py:SortedCollection"]}
{"id": "C02", "title": "append accepts exactly strictly larger keys", "statement": "SortedDeque.append(item) succeeds iff the deque is empty or key(item) > key of the last item; otherwise it raises ValueError and changes nothing. A deque filled by append alone is strictly increasing for every transitive comparison, even one that is not total (e.g. NaN keys).", "quantifier": "all deques, items, and all transitive key comparisons", "why_tests_cant": "depends on every pair of keys, including incomparable ones", "anchors": ["stream2py/utility/sorted_deque.py:SortedDeque.append"]}
{"id": "C03", "title": "find / find_le / find_lt / find_ge / find_gt agree with a linear scan", "statement": "Each find method returns the first (find, find_ge, find_gt) or last (find_le, find_lt) item that a left-to-right scan finds satisfying the key predicate, and raises ValueError exactly when no item satisfies it.", "quantifier": "all sorted deques (duplicates allowed) and all probe keys", "why_tests_cant": "binary search boundary conditions over every length and duplicate pattern", "anchors": ["stream2py/utility/sorted_collection.py:SortedCollection.find*", "stream2py/utility/sorted_deque.py:SortedDeque"]}
{"id": "C04", "title": "range(start, stop, step) returns exactly the items in the closed key interval", "statement": "SortedDeque.range returns, in order, exactly the items with start <= key <= stop (every step-th of them from the first, if a step is given) and raises ValueError iff step is not positive.", "quantifier": "all sorted deques, bounds (also inverted or absent from the deque) and steps", "why_tests_cant": "quantifies over all key positions relative to the bounds", "anchors": ["stream2py/utility/sorted_deque.py:SortedDeque.range", "stream2py/utility/sorted_deque.py:SortedDeque.range_by_index"]}
{"id": "C05", "title": "in / index / count agree with a linear scan", "statement": "item in d, d.index(item) and d.count(item) give what scanning the whole deque gives (index = position of first equal item, ValueError if none).", "quantifier": "all sorted deques, including duplicate keys with distinct items, and all items", "why_tests_cant": "the key-bisected slice must contain every equal item", "anchors": ["stream2py/utility/sorted_deque.py:SortedDeque.__contains__", "stream2py/utility/sorted_deque.py:SortedDeque.index", "stream2py/utility/sorted_deque.py:SortedDeque.count"]}
{"id": "C06", "title": "insert / insert_right / remove change exactly one item at the documented place", "statement": "insert places the item before all items with an equal key, insert_right after all of them; all other items keep their order; on a full bounded deque both raise IndexError and change nothing; remove deletes exactly the first equal item or raises ValueError and changes nothing.", "quantifier": "all sorted deques and items", "why_tests_cant": "all tie patterns and fill levels", "anchors": ["stream2py/utility/sorted_collection.py:SortedCollection.insert", "stream2py/utility/sorted_collection.py:SortedCollection.insert_right", "stream2py/utility/sorted_collection.py:SortedCollection.remove"]}
{"id": "C07", "title": "drop(n) removes exactly the n oldest items", "statement": "drop(n) removes the first n items and nothing else; if n exceeds the length it empties the deque and raises IndexError, leaving a consistent empty deque; n <= 0 does nothing.", "quantifier": "all deques and all integers n", "why_tests_cant": "loop with a failure in the middle, all lengths", "anchors": ["stream2py/utility/sorted_deque.py:SortedDeque.drop", "stream2py/stream_buffer.py:StreamBuffer.drop"]}
{"id": "C08", "title": "A bounded buffer holds exactly the most recent maxlen accepted items", "statement": "After any sequence of appends to an empty SortedDeque with maxlen m, the contents are exactly the last m accepted items in order (all of them when maxlen is None).", "quantifier": "all m (including 0 and None) and all append sequences, including rejected appends", "why_tests_cant": "eviction must be right after any history", "anchors": ["stream2py/utility/sorted_deque.py:SortedDeque.append", "stream2py/stream_buffer.py:_SourceBuffer.append"]}
{"id": "C09", "title": "construct / copy / clear / resize", "statement": "Constructing from any iterable gives a key-sorted permutation of the items, truncated to the maxlen largest; assigning maxlen=m keeps the m largest-key items; deleting the key re-sorts by the items themselves and keeps the bound; clear empties and keeps key and maxlen; copy (and the pickle / jdict round trip) has the same items, in the same order whenever no two keys tie.", "quantifier": "all iterables, keys, and maxlen values", "why_tests_cant": "sorting correctness and tie handling over all inputs", "anchors": ["stream2py/utility/sorted_collection.py:SortedCollection.__init__", "stream2py/utility/sorted_deque.py:SortedDeque._setmaxlen", "stream2py/utility/sorted_deque.py:SortedDeque.copy", "stream2py/utility/sorted_deque.py:SortedDeque.clear", "stream2py/utility/sorted_collection.py:SortedCollection._delkey"]}
{"id": "C10", "title": "find_last_gt returns the newest item iff it is newer than the probe", "statement": "find_last_gt(k) returns the last item if its key > k, else raises ValueError (also when empty).", "quantifier": "all sorted deques and probes", "why_tests_cant": "boundary behaviour at equality and emptiness for every content", "anchors": ["stream2py/utility/sorted_deque.py:SortedDeque.find_last_gt"]}
{"id": "C11", "title": "Every reader operation behaves like a linear scan of the retained window", "statement": "For any interleaving of appends, manual drops and reader calls (read, range, head, tail, peeks, cursor assignment/deletion) by any number of readers, the result or exception of every call and every cursor equals that of a trivial reference in which the buffer is a plain list of retained items and each reader a last-seen item.", "quantifier": "all interleavings of atomic buffer/reader operations of any length, any number of readers, all arguments", "why_tests_cant": "refinement over unbounded histories", "anchors": ["stream2py/buffer_reader.py:BufferReader", "stream2py/utility/sorted_deque.py:SortedDeque"]}
{"id": "C12", "title": "Reads of one reader never repeat and never go backwards", "statement": "The concatenation of everything returned by successive non-peeking read()/next() calls of one reader has strictly increasing keys, whatever appends, evictions, drops and other readers interleave.", "quantifier": "all interleavings, all n", "why_tests_cant": "ordering over unbounded histories", "anchors": ["stream2py/buffer_reader.py:BufferReader.read"]}
{"id": "C13", "title": "No item is lost unless it left the buffer unread", "statement": "If the source produces strictly increasing keys, each read returns the item(s) directly following, in append order, the reader's last seen item or, if those left the buffer, the oldest retained; so a reader that is never overtaken by eviction receives exactly the appended sequence with no gap.", "quantifier": "all interleavings of appends/evictions/drops with reads of any size", "why_tests_cant": "gap freedom over unbounded histories", "anchors": ["stream2py/buffer_reader.py:BufferReader.read", "stream2py/stream_buffer.py:StreamBuffer"]}
{"id": "C14", "title": "Readers are independent and read-only", "statement": "No reader call changes the buffer contents, and calls on one reader never change the result of any call on another.", "quantifier": "all interleavings over any number of readers", "why_tests_cant": "non-interference over all histories", "anchors": ["stream2py/buffer_reader.py:BufferReader", "stream2py/stream_buffer.py:StreamBuffer.mk_reader"]}
{"id": "C15", "title": "Explicit peek never moves the cursor", "statement": "read/range/head/tail with peek=True return what the same call without peek would return (range returns [] where the non-peek raises/None on an empty result) and leave last_item/last_key unchanged, so repeating the peek returns the same value.", "quantifier": "all buffers, cursors and arguments", "why_tests_cant": "all argument combinations", "anchors": ["stream2py/buffer_reader.py:BufferReader.read", "stream2py/buffer_reader.py:BufferReader.range", "stream2py/buffer_reader.py:BufferReader.tail", "stream2py/buffer_reader.py:BufferReader.head"]}
{"id": "C16", "title": "Constructor defaults of read size, ignore_no_item_found and strict_n are honoured by read()", "statement": "Arguments n, ignore_no_item_found and strict_n of read() that are left unspecified take the value given to mk_reader, and those specified take precedence.", "quantifier": "all constructor settings, all subsets of specified arguments, all buffers and reader states", "why_tests_cant": "all combinations of defaults and overrides", "anchors": ["stream2py/buffer_reader.py:BufferReader.__init__", "stream2py/buffer_reader.py:BufferReader.read", "stream2py/buffer_reader.py:defaulted_values"]}
{"id": "C17", "title": "read(n) returns the next n items", "statement": "Without strict_n, read(n) with n > 1 and something unread returns the next min(n, available) unread items contiguously and leaves the rest unread; with n <= 1 it returns the first unread item.", "quantifier": "all buffers, cursors and n", "why_tests_cant": "every position of the cursor and every n", "anchors": ["stream2py/buffer_reader.py:BufferReader.read"]}
{"id": "C18", "title": "A failed or empty read leaves the cursor where it was", "statement": "If read, range, head or tail raises or returns None, last_item and last_key are unchanged.", "quantifier": "all buffers, cursors and arguments", "why_tests_cant": "all failure paths", "anchors": ["stream2py/buffer_reader.py:BufferReader"]}
{"id": "C19", "title": "No-data behaviour of read", "statement": "read raises ValueError (or returns None iff ignore_no_item_found) exactly when no retained item is newer than the cursor; with at least one it returns data unless strict_n rejects.", "quantifier": "all buffers, cursors, n <= 1 and n > 1", "why_tests_cant": "all states", "anchors": ["stream2py/buffer_reader.py:BufferReader.read"]}
{"id": "C20", "title": "range(only_new_items=True) returns only unseen items", "statement": "Every item returned by range(..., only_new_items=True) has a key greater than last_key, for every combination of start_le / stop_ge / step, and it returns exactly the in-range unseen items.", "quantifier": "all buffers, cursors and flags", "why_tests_cant": "interaction of rounding flags with the cursor over all key positions", "anchors": ["stream2py/buffer_reader.py:BufferReader.range"]}
{"id": "C21", "title": "start_le and stop_ge round the interval as documented", "statement": "With start_le the interval is widened down to the greatest key <= start (if any); with stop_ge the call raises ValueError (None with ignore_no_item_found) iff no key >= stop is retained and otherwise extends to the first such key.", "quantifier": "all buffers and bounds", "why_tests_cant": "all relative positions of bounds and keys", "anchors": ["stream2py/buffer_reader.py:BufferReader.range"]}
{"id": "C22", "title": "range(only_new_items, ignore_no_item_found) returns None when there is nothing new", "statement": "With both flags and a set cursor, range returns None and does not raise when no retained item is newer than last_key, for every key function.", "quantifier": "all key functions (including ones that accept None) and buffers", "why_tests_cant": "quantifies over key functions", "anchors": ["stream2py/buffer_reader.py:BufferReader.range", "stream2py/source_reader.py:QuickSourceReader.key"]}
{"id": "C23", "title": "head / tail return the oldest / newest retained item", "statement": "head returns the oldest and tail the newest retained item; on an empty buffer they raise IndexError (tail returns None with ignore_no_item_found); tail(only_new_items) returns the newest iff it is newer than the cursor, else ValueError / None.", "quantifier": "all buffers and cursors", "why_tests_cant": "all contents and cursors", "anchors": ["stream2py/buffer_reader.py:BufferReader.head", "stream2py/buffer_reader.py:BufferReader.tail"]}
{"id": "C24", "title": "last_key always is the key of last_item", "statement": "At any point of any history, last_item and last_key are either both None or last_key == key(last_item).", "quantifier": "all operation histories", "why_tests_cant": "invariant over histories", "anchors": ["stream2py/buffer_reader.py:BufferReader.last_item", "stream2py/buffer_reader.py:BufferReader.last_key"]}
{"id": "C25", "title": "__next__: None while running, StopIteration only when stopped", "statement": "next(reader) never raises StopIteration unless the stream is stopped, never returns None once the stream was stopped before the call, and after the source thread has finished repeated next calls deliver every remaining retained item in order and then raise StopIteration forever.", "quantifier": "all schedules and buffer contents", "why_tests_cant": "all schedules", "anchors": ["stream2py/buffer_reader.py:BufferReader.__next__"]}
{"id": "C26", "title": "A for loop delivers everything appended before it ends", "statement": "When a for loop over a reader terminates by itself, every item appended before the stop event was set (and not evicted unread) has been yielded, in order.", "quantifier": "all interleavings of the source thread, stop() and the consumer", "why_tests_cant": "a two-instruction race window that tests essentially never hit", "anchors": ["stream2py/buffer_reader.py:BufferReader.__iter__", "stream2py/buffer_reader.py:BufferReader.__next__", "stream2py/stream_buffer.py:StreamBuffer._run"]}
{"id": "C27", "title": "Blocking read waits for data and returns None only when stopped", "statement": "read(blocking=True) never returns None and never raises for lack of data while the stream is running, returns the next item once there is one, and returns None only after the stop event is set.", "quantifier": "all interleavings", "why_tests_cant": "all schedules", "anchors": ["stream2py/buffer_reader.py:BufferReader.read"]}
{"id": "C28", "title": "Writers are exclusive", "statement": "At no time is a writer inside its critical section together with any reader or another writer.", "quantifier": "all interleavings of atomic lock operations of any number of reader and writer threads (also nested readers)", "why_tests_cant": "all schedules", "anchors": ["stream2py/utility/reader_writer_lock.py:RWLock", "stream2py/utility/reader_writer_lock.py:_LightSwitch", "stream2py/utility/locked_sorted_deque.py:RWLockSortedDeque"]}
{"id": "C29", "title": "A reader sees one consistent snapshot", "statement": "Everything observed inside one reader critical section is the state produced by some whole number of completed writer sections: no half-finished append or drop is ever visible, and it does not change during the section.", "quantifier": "all interleavings with multi-step writers", "why_tests_cant": "torn reads need specific schedules", "anchors": ["stream2py/utility/locked_sorted_deque.py:RWLockSortedDeque.reader_lock", "stream2py/utility/locked_sorted_deque.py:RWLockSortedDeque.writer_lock"]}
{"id": "C30", "title": "The locking never deadlocks", "statement": "Whenever some thread is inside or waiting for the lock, some thread can make progress, for all uses the library makes of the lock.", "quantifier": "all interleavings and numbers of threads", "why_tests_cant": "deadlocks need specific schedules", "anchors": ["stream2py/utility/reader_writer_lock.py:RWLock", "stream2py/buffer_reader.py:BufferReader.range"]}
{"id": "C31", "title": "Writers have priority", "statement": "While a writer is waiting for the readers inside to leave, no further reader can get in; readers do not exclude each other when no writer is around.", "quantifier": "all interleavings", "why_tests_cant": "all schedules", "anchors": ["stream2py/utility/reader_writer_lock.py:RWLock.reader_acquire", "stream2py/utility/reader_writer_lock.py:RWLock.writer_acquire"]}
{"id": "C32", "title": "The lock is always given back", "statement": "When no thread is using the lock, it is in its initial state (all internal locks free, counters zero), whatever happened before, including operations that raised inside the critical section.", "quantifier": "all interleavings, including raising bodies", "why_tests_cant": "all histories", "anchors": ["stream2py/utility/reader_writer_lock.py:RWLock", "stream2py/utility/locked_sorted_deque.py:RWLockSortedDeque.reader_lock"]}
{"id": "C33", "title": "auto_drop=False never loses data", "statement": "With auto_drop=False the source is not read while the buffer holds maxlen items, and no item leaves the buffer except through drop(): items accepted = items dropped manually followed by items retained.", "quantifier": "all interleavings of source thread, drop() calls and restarts", "why_tests_cant": "check-then-append race across threads", "anchors": ["stream2py/stream_buffer.py:StreamBuffer._run", "stream2py/stream_buffer.py:StreamBuffer.drop"]}
{"id": "C34", "title": "drop() is refused when auto_drop is True", "statement": "With auto_drop=True, StreamBuffer.drop raises RuntimeError and changes nothing; so eviction only ever happens through maxlen.", "quantifier": "all states", "why_tests_cant": "all states", "anchors": ["stream2py/stream_buffer.py:StreamBuffer.drop"]}
{"id": "C35", "title": "mk_reader / attach_reader give a reader of the latest session", "statement": "When no start() is in progress, mk_reader and attach_reader give a reader of the session set up by the latest start() that called open, if that open succeeded, and raise StreamNotStartedError otherwise, in particular before any start().", "quantifier": "all histories of start/stop/failed start/mk_reader", "why_tests_cant": "all histories", "anchors": ["stream2py/stream_buffer.py:StreamBuffer.mk_reader", "stream2py/stream_buffer.py:StreamBuffer.attach_reader"]}
{"id": "C36", "title": "Readers know their session", "statement": "is_same_buffer is true exactly for readers of the same session, and once a later session has begun the readers of an earlier one see is_stopped.", "quantifier": "all histories of start/stop/restart interleaved with the source threads", "why_tests_cant": "all histories and interleavings", "anchors": ["stream2py/stream_buffer.py:StreamBuffer.start", "stream2py/buffer_reader.py:BufferReader.is_same_buffer", "stream2py/buffer_reader.py:BufferReader.is_stopped"]}
{"id": "C37", "title": "At most one thread reads the source", "statement": "At any time at most one background thread is reading from the source.", "quantifier": "all histories and schedules", "why_tests_cant": "needs a slow read overlapping a restart", "anchors": ["stream2py/stream_buffer.py:StreamBuffer._run", "stream2py/stream_buffer.py:StreamBuffer.start", "stream2py/stream_buffer.py:StreamBuffer.stop"]}
{"id": "C38", "title": "stop() ends the session promptly", "statement": "After the stop event is set, and until the next start() replaces it, every reading thread reads the source at most once more and appends at most one more item, and it ends after at most 8 of its own steps; it is never stuck but inside a call of the source.", "quantifier": "all schedules and histories, also with threads of earlier sessions still alive", "why_tests_cant": "all schedules", "anchors": ["stream2py/stream_buffer.py:StreamBuffer.stop", "stream2py/stream_buffer.py:StreamBuffer._run"]}
{"id": "C39", "title": "The thread of a session closes the source exactly once", "statement": "The thread of each session closes the source exactly once, after its last read and after readers can see is_stopped, whether it ended by stop(), by an exception in read/append, or close itself raised.", "quantifier": "all schedules and failure points", "why_tests_cant": "every crash point of the loop", "anchors": ["stream2py/stream_buffer.py:StreamBuffer._run"]}
{"id": "C40", "title": "Items are stored in read order, None is never stored", "statement": "The buffer of a session accepts exactly the non-None values returned by the source's read, in order, until the first one whose key does not increase; that one stops the stream and everything accepted before stays readable.", "quantifier": "all source behaviours and schedules", "why_tests_cant": "all source behaviours", "anchors": ["stream2py/stream_buffer.py:StreamBuffer._run", "stream2py/utility/sorted_deque.py:SortedDeque.append"]}
{"id": "C41", "title": "A dying source thread always announces itself", "statement": "However the source thread ends (stop, read error, append error, close error), is_stopped is true for the session's readers and is_running is false once it ended.", "quantifier": "all failure points", "why_tests_cant": "every crash point", "anchors": ["stream2py/stream_buffer.py:StreamBuffer._run", "stream2py/stream_buffer.py:StreamBuffer.is_running"]}
{"id": "C42", "title": "is_running tells whether a session is live", "statement": "If the latest start() succeeded, is_running is true exactly until that session is ended (by stop(), the next start() or the death of its thread); before any start() it is false.", "quantifier": "all histories", "why_tests_cant": "all histories and interleavings", "anchors": ["stream2py/stream_buffer.py:StreamBuffer.is_running", "stream2py/stream_buffer.py:StreamBuffer.start"]}
{"id": "C43", "title": "next(stream_buffer) reads the current session", "statement": "next(stream_buffer) reads from the buffer of the latest session, also after the stream died or was stopped and was started again.", "quantifier": "all histories", "why_tests_cant": "needs restart after a crash", "anchors": ["stream2py/stream_buffer.py:StreamBuffer.__next__", "stream2py/stream_buffer.py:StreamBuffer.stop"]}
{"id": "C44", "title": "Unbounded buffers work with every setting", "statement": "With maxlen=None the stream runs and stores all items, for auto_drop True and False.", "quantifier": "both settings, all sources", "why_tests_cant": "configuration combination", "anchors": ["stream2py/stream_buffer.py:StreamBuffer._run", "stream2py/stream_source.py:StreamSource.configure_buffer"]}
{"id": "C45", "title": "A StreamSource stays open exactly while it has open readers", "statement": "The source is stopped when the last open reader is closed and not before, for every order of opening and closing readers (also closing one reader twice).", "quantifier": "all sequences of open_reader/close", "why_tests_cant": "all orders", "anchors": ["stream2py/stream_source.py:StreamSource._handle_reader_closed", "stream2py/stream_source.py:StreamSource.open_reader"]}
{"id": "C46", "title": "A closed StreamSource can be reopened", "statement": "open_reader after all readers were closed (or after a failed open) opens the source again and returns a reader of a running stream.", "quantifier": "all sequences of open/close and failing opens", "why_tests_cant": "history dependent", "anchors": ["stream2py/stream_source.py:StreamSource._ensure_buffer", "stream2py/stream_source.py:StreamSource.exit"]}
{"id": "C47", "title": "Readers can be closed / used as context managers", "statement": "Closing a reader, or leaving a with-block over it, runs its on-close callback if it has one and otherwise does nothing; it never raises.", "quantifier": "all readers, from mk_reader or open_reader", "why_tests_cant": "depends on how the reader was made", "anchors": ["stream2py/buffer_reader.py:BufferReader.close", "stream2py/buffer_reader.py:BufferReader.__exit__"]}
{"id": "C48", "title": "configure_buffer only before the first open_reader", "statement": "configure_buffer raises ValueError once the buffer exists and changes nothing; before that, the last configuration is the one used.", "quantifier": "all sequences of configure/open", "why_tests_cant": "histories", "anchors": ["stream2py/stream_source.py:StreamSource.configure_buffer"]}
{"id": "C49", "title": "QuickSourceReader.closed tells whether the source is open", "statement": "For a QuickSourceReader, closed is False exactly while the source is open, whether it was opened by with, by open(), or by a StreamBuffer, and whether these calls raise or not.", "quantifier": "all sequences of open/close/enter/exit including raising ones", "why_tests_cant": "histories", "anchors": ["stream2py/source_reader.py:QuickSourceReader.open", "stream2py/source_reader.py:QuickSourceReader.close", "stream2py/source_reader.py:SourceReader.closed"]}
{"id": "C50", "title": "Iterating a source reader yields exactly its valid reads in order", "statement": "Iterating a SourceReader (QuickSourceReader) yields exactly the non-None (is_valid_data) values returned by read, in order, with none dropped or repeated, up to the first exception.", "quantifier": "all read sequences, validity predicates and when_no_data functions", "why_tests_cant": "unbounded sequences", "anchors": ["stream2py/source_reader.py:SourceReader.__iter__", "stream2py/source_reader.py:QuickSourceReader.__iter__"]}
{"id": "C51", "title": "mk_stream_buffer with enumerated data never rejects an item", "statement": "With the default enumerate_data and key, or key = first component, and as long as the body of the with statement does not call start() itself, the n-th read is stored as (n, data) and no append is ever rejected, whatever the data.", "quantifier": "all read_stream behaviours, schedules and bodies without start()", "why_tests_cant": "unbounded sequences", "anchors": ["stream2py/simply.py:mk_stream_buffer"]}
{"id": "C52", "title": "mk_stream_buffer skips None reads", "statement": "A None returned by read_stream means \"no data yet\" and is not stored.", "quantifier": "all settings of enumerate_data", "why_tests_cant": "configuration", "anchors": ["stream2py/simply.py:mk_stream_buffer"]}
{"id": "C53", "title": "mk_stream_buffer always stops the stream", "statement": "Leaving the with-block by any route (normal, exception in the body, exception in open_stream) sets the stop event, and the exception propagates.", "quantifier": "all bodies and failure points", "why_tests_cant": "crash points", "anchors": ["stream2py/simply.py:mk_stream_buffer"]}
{"id": "C54", "title": "Sleep time precedence", "statement": "The sleep time on None is the explicit argument if it is a number (also 0), else the source's number, else 0.3.", "quantifier": "all values", "why_tests_cant": "all combinations", "anchors": ["stream2py/stream_buffer.py:StreamBuffer.__init__"]}
{"id": "C55", "title": "ContextualizeCall adds context management and nothing else", "statement": "Calling the wrapper calls the wrapped function; entering/leaving runs the given enter/exit function on the wrapped callable, also when wrapping an already wrapped callable; an exit function that cannot take the exception arguments is rejected at construction.", "quantifier": "all functions, enter and exit functions, nesting depths", "why_tests_cant": "all compositions", "anchors": ["stream2py/util.py:ContextualizeCall", "stream2py/util.py:ExitFunctionValidation"]}
{"id": "C56", "title": "HTTPResponseReader sends the request it was configured with", "statement": "open() issues a request with the url, headers, method and body given at construction.", "quantifier": "all configurations", "why_tests_cant": "all configurations", "anchors": ["stream2py/sources/http.py:HTTPResponseReader"]}
{"id": "C57", "title": "Accepted keys increase over a whole session", "statement": "The sequence of all items ever accepted by one session buffer has strictly increasing keys (so last_key comparisons are meaningful even across evictions).", "quantifier": "all histories including manual drops that empty the buffer", "why_tests_cant": "needs drop-to-empty followed by a stale key", "anchors": ["stream2py/utility/sorted_deque.py:SortedDeque.append", "stream2py/utility/sorted_deque.py:SortedDeque.drop"]}
{"id": "C58", "title": "source_reader_info is the info of the current session", "statement": "Once start() has opened the source, StreamBuffer.source_reader_info is the info dict that the source reported at that open, whatever has been read since; before that it is None.", "quantifier": "all sessions and all buffer contents, including the empty buffer", "why_tests_cant": "depends on how far the source thread has got", "anchors": ["stream2py/stream_buffer.py:StreamBuffer.source_reader_info", "stream2py/stream_buffer.py:_SourceBuffer.__len__"]}
{"id": "C59", "title": "An attached reader continues from its cursor", "statement": "attach_reader(reader) makes the reader a reader of the current session with its cursor kept: it then gets exactly the retained and future items of that session whose keys are above the key of its last item, sees is_stopped of that session, and no other reader is affected.", "quantifier": "all histories, all readers of earlier sessions, all buffer contents", "why_tests_cant": "the cursor comes from another session with arbitrary keys", "anchors": ["stream2py/stream_buffer.py:StreamBuffer.attach_reader", "stream2py/stream_buffer.py:_SourceBuffer.attach_reader"]}
{"id": "C60", "title": "Buffered data survive the end of an HTTP response", "statement": "When the response of an HTTPResponseReader is exhausted, its read signals \"no data\", so what was received stays readable in a StreamBuffer until newer data come.", "quantifier": "all responses, buffer sizes and schedules", "why_tests_cant": "depends on how long the source thread keeps reading after the end", "anchors": ["stream2py/sources/http.py:HTTPResponseReader.read", "stream2py/stream_buffer.py:StreamBuffer._run"]}
{"id": "C61", "title": "HTTPResponseReader.info counts the bytes read", "statement": "info[\"n_bytes_read\"] is the number of bytes read so far.", "quantifier": "all histories of open, read, close", "why_tests_cant": "histories", "anchors": ["stream2py/sources/http.py:HTTPResponseReader.info"]}
{"id": "C62", "title": "A reader describes the session it reads", "statement": "reader.source_reader_info is the info that the source reported at the open of the session whose items the reader reads, also after attach_reader.", "quantifier": "all sessions, all readers, all attach_reader calls", "why_tests_cant": "histories with several sessions", "anchors": ["stream2py/buffer_reader.py:BufferReader.source_reader_info", "stream2py/stream_buffer.py:_SourceBuffer.attach_reader"]}
{"id": "C63", "title": "From the session buffer to the consumer nothing is repeated, reordered or lost", "statement": "What a consumer (for loop, next, blocking read) received from its reader, followed by what it can still read, is, in order and without repetition, a part of what was stored in its session; it is all of it as long as the consumer never falls behind what the buffer retains (always, with an unbounded buffer).", "quantifier": "all schedules, source behaviours, buffer bounds, other readers, restarts", "why_tests_cant": "end to end over all interleavings of three threads", "anchors": ["stream2py/stream_buffer.py:StreamBuffer._run", "stream2py/buffer_reader.py:BufferReader.__next__", "stream2py/buffer_reader.py:BufferReader.__iter__", "stream2py/buffer_reader.py:BufferReader.read"]}
{"id": "C64", "title": "Every session reads a freshly opened source from its beginning, and an orderly source never kills the stream", "statement": "What the source object answers to the reading thread of a session is what its read gives, called again and again, from the state its open just left; the session info is taken from that same state. If read does not raise and the keys of the data strictly increase, no append is rejected and no thread ends by an exception, and every datum is stored. For the example source SimpleCounterString(start, stop): each session reads s{start}, s{start+1}, ... up to s{stop-1} and then None, info.open_count is the number of the session, and a consumer of an unbounded buffer gets exactly these strings in order.", "quantifier": "all source objects (any state, open/read/close/info/key), schedules, restarts, settings; all start and stop for the counter", "why_tests_cant": "the source object is shared by the reading threads of successive sessions; all schedules and source states", "anchors": ["stream2py/stream_buffer.py:StreamBuffer.start", "stream2py/stream_buffer.py:StreamBuffer._run", "stream2py/examples/source_reader.py:SimpleCounterString", "stream2py/source_reader.py:SourceReader"]}
{"id": "C65", "title": "join() returns only when the session is over", "statement": "When join() returns, the thread of the session it waited for has closed the source (exactly once), the readers of that session see is_stopped, and that thread touches the source and the buffers no more, whatever is called afterwards. It blocks exactly as long as the thread runs.", "quantifier": "all schedules, source behaviours, callers, restarts", "why_tests_cant": "needs all interleavings of the waiting caller, the reading thread and other callers", "anchors": ["stream2py/stream_buffer.py:StreamBuffer.join", "stream2py/stream_buffer.py:StreamBuffer._run"]}
{"id": "C66", "title": "Stop, join, start keeps sessions apart", "statement": "If every start() comes after join() has returned for every earlier session (or the stream is started only once), then one thread at a time uses the source, every item is stored in the buffer of its own session, in the order read and none lost except one on its way or refused, earlier sessions do not change any more (but for a drop() call begun before the restart), calls on the source obey open, read*, close, and a consumer of an unbounded buffer gets all of it.", "quantifier": "all such executions: schedules, source behaviours, settings, consumers", "why_tests_cant": "all interleavings; the discipline is the one users can follow, the guarantee is end to end", "anchors": ["stream2py/stream_buffer.py:StreamBuffer.start", "stream2py/stream_buffer.py:StreamBuffer.stop", "stream2py/stream_buffer.py:StreamBuffer.join", "stream2py/stream_buffer.py:StreamBuffer._run"]}
{"id": "C67", "title": "Concurrent calls behave as if made one at a time", "statement": "Threads may append to and drop from a buffer and read through readers (calls on one reader never overlapping) at the same time, their statements interleaving in any way. The results they get are those of some sequential order of the calls, in which a call that returned before another was made comes first; when no call is in progress, buffer and readers are as after that sequential execution. A call in progress waits for nothing but the lock. No call runs for ever, and calls do not wait for each other for ever, unless a range(only_new_items=True) is among them.", "quantifier": "all numbers of threads, all calls with all arguments, all interleavings of the single statements of the lock, the mutations and the accesses", "why_tests_cant": "the interleavings of single accesses are unboundedly many and depend on the thread scheduler; a test exercises a few of them", "anchors": ["stream2py/utility/reader_writer_lock.py:RWLock", "stream2py/utility/locked_sorted_deque.py:RWLockSortedDeque", "stream2py/buffer_reader.py:BufferReader", "stream2py/utility/sorted_deque.py:SortedDeque"]}
{"id": "C68", "title": "Threads sharing a reader split its items", "statement": "Threads may call one reader at the same time: each item is given to one of them, as if their calls had been made one after the other.", "quantifier": "all numbers of threads sharing a reader, all interleavings of their statements", "why_tests_cant": "losing the race takes a particular interleaving of two statements, which a test hardly ever hits", "anchors": ["stream2py/buffer_reader.py:BufferReader.next", "stream2py/utility/locked_sorted_deque.py:RWLockSortedDeque.reader_lock"]}
{"id": "C69", "title": "Threads may open and close readers of a StreamSource at the same time", "statement": "However the calls of open_reader and close of several threads interleave: one stream buffer is made, the source is opened once, no call fails because of the others, and the stream is stopped when the last open reader is closed and not before.", "quantifier": "all numbers of threads, all interleavings of the single statements (loads and stores) of open_reader, close and configure_buffer with each other, the background threads and the source", "why_tests_cant": "the races are between single loads and stores of attributes; a test hits them by luck only", "anchors": ["stream2py/stream_source.py:StreamSource.open_reader", "stream2py/stream_source.py:StreamSource._ensure_buffer", "stream2py/stream_source.py:StreamSource._handle_reader_closed", "stream2py/buffer_reader.py:BufferReader.close"]}
{"id": "C70", "title": "An interrupted call leaves the buffer usable", "statement": "If a thread that waits for the buffer, reads it or drops from it is interrupted (KeyboardInterrupt), the buffer goes on as if the call had returned or not been made: writers stay alone, nobody is locked out, keys and items stay in step.", "quantifier": "all numbers of threads, all schedules, all numbers and moments of interrupts between statements or out of a blocking lock acquisition", "why_tests_cant": "the effect depends on the single statement at which the signal strikes and shows only in later calls of other threads", "anchors": ["stream2py/utility/locked_sorted_deque.py:RWLockSortedDeque.reader_lock", "stream2py/utility/locked_sorted_deque.py:RWLockSortedDeque.writer_lock", "stream2py/utility/reader_writer_lock.py:RWLock", "stream2py/utility/sorted_deque.py:SortedDeque.drop"]}
{"id": "C71", "title": "An HTTP stream delivers the response", "statement": "A StreamBuffer over an HTTPResponseReader whose response can be read without errors, whose clock moves on between two reads, whose encoding can be decoded piece by piece (or none), and that is only started when no thread of an earlier session is alive, never ends by itself; with an unbounded buffer, what a consumer of the b-th session has received, can still read and will be given next are the pieces of the b-th response from its first byte on, each once and in order, and all of the body once an empty piece is among them. Each of the conditions on clock and encoding is needed.", "quantifier": "all responses cut into any pieces, all clocks, all decodings, all numbers of sessions, all schedules of the reading thread, the user and the consumer", "why_tests_cant": "the pieces depend on the network and their interleaving with the consumer on the scheduler; tests use one local server", "anchors": ["stream2py/sources/http.py:HTTPResponseReader.open", "stream2py/sources/http.py:HTTPResponseReader.read", "stream2py/sources/http.py:HTTPResponseReader.key", "stream2py/stream_buffer.py:StreamBuffer._run", "stream2py/stream_buffer.py:StreamBuffer.start"]}
{"id": "C72", "title": "Assigning a key function re-sorts and keeps the bound", "statement": "d.key = f on a SortedDeque gives all items sorted by f, and keeps maxlen.", "quantifier": "all deques and key functions", "why_tests_cant": "all inputs", "anchors": ["stream2py/utility/sorted_deque.py:SortedDeque._setkey", "stream2py/utility/sorted_collection.py:SortedCollection._setkey"]}
{"id": "C73", "title": "The peek default given to mk_reader is honoured by read()", "statement": "A read() without peek argument peeks iff the reader was made with peek=True.", "quantifier": "all constructor settings, buffers and reader states", "why_tests_cant": "all combinations of defaults and overrides", "anchors": ["stream2py/buffer_reader.py:BufferReader.__init__", "stream2py/buffer_reader.py:BufferReader.read"]}
{"id": "C74", "title": "strict_n makes n exact", "statement": "With strict_n, read(n) returns exactly n items whenever n unread items are available and raises ValueError, cursor unchanged, when they are not.", "quantifier": "all buffers, cursors and n", "why_tests_cant": "off-by-one at available = n for every position", "anchors": ["stream2py/buffer_reader.py:BufferReader.read"]}
{"id": "C75", "title": "Once started, a stream buffer makes readers", "statement": "mk_reader raises StreamNotStartedError only if the StreamBuffer has not been started yet (as its documentation says), also after a later start() failed.", "quantifier": "all histories with failing open", "why_tests_cant": "failure point inside a restart", "anchors": ["stream2py/stream_buffer.py:StreamBuffer.mk_reader"]}
{"id": "C76", "title": "Sessions are isolated", "statement": "Data read in one session (start..stop) is only ever stored in that session's buffer, and old readers keep seeing the old data.", "quantifier": "all histories of start/stop/restart interleaved with the source threads", "why_tests_cant": "needs a slow read overlapping a restart", "anchors": ["stream2py/stream_buffer.py:StreamBuffer.start", "stream2py/stream_buffer.py:StreamBuffer._run"]}
{"id": "C77", "title": "stop() ends the session also when it is restarted at once", "statement": "After the stop event of a session is set its thread reads the source at most once more and appends at most one more item, also when start() is called again.", "quantifier": "all schedules and restarts", "why_tests_cant": "needs a slow read overlapping a restart", "anchors": ["stream2py/stream_buffer.py:StreamBuffer.stop", "stream2py/stream_buffer.py:StreamBuffer.start", "stream2py/stream_buffer.py:StreamBuffer._run"]}
{"id": "C78", "title": "The source is opened, read and closed in turn", "statement": "open is only called on a closed source, read and close only on an open one, and when no session runs every open was followed by a close.", "quantifier": "all schedules and failure points", "why_tests_cant": "every crash point of start and the loop", "anchors": ["stream2py/stream_buffer.py:StreamBuffer._run", "stream2py/stream_buffer.py:StreamBuffer.start", "stream2py/stream_buffer.py:StreamBuffer._open"]}
{"id": "C79", "title": "A failed start() leaves is_running false", "statement": "After a start() that raised, is_running is false.", "quantifier": "all histories including failing open", "why_tests_cant": "failure point inside start", "anchors": ["stream2py/stream_buffer.py:StreamBuffer.is_running", "stream2py/stream_buffer.py:StreamBuffer.start"]}
{"id": "C80", "title": "SourceReader.closed tells whether the source is open", "statement": "For any SourceReader subclass, closed is False exactly while the source is open, whether it was opened by with, by open(), or by a StreamBuffer.", "quantifier": "all sequences of open/close/enter/exit including raising ones", "why_tests_cant": "histories", "anchors": ["stream2py/source_reader.py:SourceReader.closed", "stream2py/source_reader.py:SourceReader.__enter__", "stream2py/source_reader.py:SourceReader.__exit__"]}
{"id": "C81", "title": "Iterating a StreamSource yields its data until it is stopped", "statement": "Iterating a StreamSource yields exactly the non-None values returned by read, in order, and ends when stopped.", "quantifier": "all read sequences", "why_tests_cant": "unbounded sequences", "anchors": ["stream2py/stream_source.py:StreamSource.__iter__"]}
{"id": "C82", "title": "mk_stream_buffer with enumerated data survives restarts", "statement": "As C51, also when the body of the with statement calls start() again.", "quantifier": "all read_stream behaviours, schedules and bodies", "why_tests_cant": "needs a slow read overlapping a restart", "anchors": ["stream2py/simply.py:mk_stream_buffer"]}
{"id": "C83", "title": "Closing an HTTPResponseReader twice is harmless", "statement": "After a close() that returned, further close() calls do nothing; every response is closed at most once.", "quantifier": "all histories of open and close, raising or not", "why_tests_cant": "histories", "anchors": ["stream2py/sources/http.py:HTTPResponseReader.close"]}
{"id": "C84", "title": "From the source to the consumer nothing is repeated, reordered or lost", "statement": "What a consumer received is, in order and without repetition, a part of what the source's read returned in that session; with an unbounded buffer, received, then still readable, then at most one item in flight or refused, is everything the source returned.", "quantifier": "all schedules, source behaviours, other readers, restarts", "why_tests_cant": "end to end over all interleavings of three threads", "anchors": ["stream2py/stream_buffer.py:StreamBuffer._run", "stream2py/buffer_reader.py:BufferReader.read"]}
{"id": "C85", "title": "A session ends only for a reason", "statement": "If every start() finds the threads of earlier sessions ended, a session whose start() returned keeps running (is_running is true, its readers do not see is_stopped, the source is not closed) until stop() or start() is called or its own thread gets an exception from read, from the append or (maxlen=None with auto_drop=False) from the comparison; in particular a read that returns None does not end it. The condition is needed: a thread of an earlier session that is still ending ends the new one, too.", "quantifier": "all settings, sources, schedules and histories", "why_tests_cant": "absence of an event over all interleavings", "anchors": ["stream2py/stream_buffer.py:StreamBuffer._run", "stream2py/stream_buffer.py:StreamBuffer.start", "stream2py/stream_buffer.py:StreamBuffer.stop"]}
{"id": "C86", "title": "A running session keeps reading the source", "statement": "As long as it does not find the buffer full (it does not look with auto_drop=True) the thread of a session calls read again after at most six statements of its own, or ends; so a thread that is scheduled again and again reads again and again.", "quantifier": "all settings, sources, schedules and histories", "why_tests_cant": "liveness under all schedules", "anchors": ["stream2py/stream_buffer.py:StreamBuffer._run"]}
{"id": "C87", "title": "Used with care, every session reads a freshly opened source from its beginning", "statement": "If start() is only called when no thread of an earlier session is alive: what the source object answers to the reading thread of a session is what its read gives, called again and again, from the state its open just left, and the session info is taken from that same state. If read does not raise and the keys of the data strictly increase, no append is rejected, no thread ends by an exception, every datum is stored, and a consumer of an unbounded buffer gets all of it in order. SimpleCounterString(start, stop) gives each session s{start}, s{start+1}, ..., and info.open_count is the number of the session.", "quantifier": "all source objects, schedules and histories of careful users", "why_tests_cant": "composition of source object, thread, buffer and consumer", "anchors": ["stream2py/stream_buffer.py:StreamBuffer._run", "stream2py/stream_buffer.py:StreamBuffer.start", "stream2py/source_reader.py:SourceReader"]}
{"id": "C88", "title": "A counter stream delivers all of its strings", "statement": "If start() is only called when no thread of an earlier session is alive, auto_drop=True: once the thread of a session over SimpleCounterString(start, stop) has executed 6*(stop-start)+10 statements, all of s{start} ... s{stop-1} are stored, in this order and once each, and a consumer of an unbounded buffer has received or can read exactly these.", "quantifier": "all start, stop, schedules, other sessions and readers", "why_tests_cant": "liveness, unbounded data", "anchors": ["stream2py/stream_buffer.py:StreamBuffer._run", "stream2py/source_reader.py:SourceReader"]}
{"id": "C89", "title": "stop() then join() returns", "statement": "If every start() comes after join() has returned for every earlier session: once the stop event of a session is set, its thread executes at most 8 more statements, among them at most one read and one append, and a caller waiting for it in join() can go on or the thread can execute one of these, whatever the source answers; so join() returns unless a call of the source does not.", "quantifier": "all settings, sources, schedules and histories of careful users", "why_tests_cant": "liveness under all schedules", "anchors": ["stream2py/stream_buffer.py:StreamBuffer.stop", "stream2py/stream_buffer.py:StreamBuffer.join", "stream2py/stream_buffer.py:StreamBuffer._run"]}
{"id": "C90", "title": "An exception ends the session", "statement": "After an exception of read(), of the append or of the length test has left the reading loop, the background thread of that session never calls read() again and stores nothing more: within three statements of its own it calls close() on the source, once, and ends; nothing can stop it from doing so.", "quantifier": "all settings, sources, schedules and histories, all continuations", "why_tests_cant": "a finite test stops looking at some point; the claim is about all later steps", "anchors": ["stream2py/stream_buffer.py:StreamBuffer._run"]}
{"id": "C91", "title": "Dropping what was received loses nothing", "statement": "auto_drop=False, start() only when earlier threads have ended, source data with increasing keys, and a consumer that at no moment has dropped more items than it has received (the loop of the documentation: receive, then drop()): what the consumer has received followed by what its reader can still read is exactly all that was stored, the dropped items are the beginning of the received ones, the buffer holds the end of the received ones followed by the unread ones; and if all that was received is dropped and the buffer is full (so that the source is not being read), there is something to read. With data whose keys do not increase this fails: the loop can stall for ever.", "quantifier": "all settings with auto_drop=False, all increasing data, all schedules, all numbers of other readers", "why_tests_cant": "Exhaustive interleavings of drop(), reads and the reading thread; a test runs the loop with one timing", "anchors": ["stream2py/simply.py: docstring of mk_stream_buffer, auto_drop", "stream2py/stream_buffer.py: StreamBuffer.drop, StreamBuffer._run", "stream2py/buffer_reader.py: BufferReader.__iter__"]}
{"id": "C92", "title": "A for loop receives everything within a bounded number of its own steps", "statement": "A for loop over a reader (default arguments, not left by break, return or an exception), with an unbounded buffer and auto_drop=True, or with auto_drop=False and a consumer that drops only what it has received (increasing keys, start() only when earlier threads have ended): if u items are unread now, then after 2u further statements of the loop (2u+2 if it is now between its read and its look at the stop event, and the stream is not stopped meanwhile) the loop body has been given everything that is stored now, in order, whatever all other threads do.", "quantifier": "all settings of these two kinds, all sources, all schedules, all positions of the loop", "why_tests_cant": "Progress under every schedule; a test sees one schedule and cannot tell slow from never", "anchors": ["stream2py/buffer_reader.py: BufferReader.__iter__, BufferReader.__next__, BufferReader.read", "stream2py/stream_buffer.py: StreamBuffer.mk_reader"]}
{"id": "C93", "title": "A for loop over the counter gets all strings", "statement": "for x in reader over a session of SimpleCounterString(start, stop) with an unbounded buffer, start() only called when no thread of an earlier session is alive: once the source thread has executed 6*(stop-start)+10 statements and after that the loop two per unread item (of which there are at most stop-start), the loop body has been given exactly s{start} ... s{stop-1}, in order, each once. (The loop is not broken off; if it is between its read and its look at the stop event, the stream is not stopped and it takes two more statements.)", "quantifier": "all start and stop, all schedules, any number of sessions before, of other readers", "why_tests_cant": "Liveness from source to consumer under every schedule", "anchors": ["stream2py/source_reader.py: SimpleCounterString", "stream2py/stream_buffer.py: StreamBuffer._run", "stream2py/buffer_reader.py: BufferReader.__iter__"]}
{"id": "C94", "title": "Keys stored in a session strictly increase", "statement": "With auto_drop=True and maxlen not 0, the keys of all items that the stream buffer ever stores in the buffer of one session strictly increase in the order of storing, over the whole session and whatever has been evicted meanwhile; and the newest stored item is the last item of the buffer. Also when several source threads overlap.", "quantifier": "all settings with auto_drop=True, all sources (any order of keys), all schedules of all threads, all numbers of start/stop", "why_tests_cant": "Whole-session order for every source and schedule; tests feed increasing keys", "anchors": ["stream2py/stream_buffer.py: StreamBuffer._run", "stream2py/utility/sorted_deque.py: BufferedDict.append"]}
{"id": "C95", "title": "A waiting consumer with something to read is served", "statement": "A consumer inside next(reader), a for loop over the reader or a blocking read (of one item, or with strict_n=False), with something unread, is given something within four of its own further statements, whatever the source thread, stop(), start() and other readers do (auto_drop=True, maxlen not 0, the reader not shared, the consumer does not give up). In particular eviction can never take the last unread item away from it. It is not just about to look at the stop event, or the stream is not stopped.", "quantifier": "all settings with auto_drop=True, all sources, all schedules, all positions of the consumer", "why_tests_cant": "Progress under every schedule, including evictions racing with the read", "anchors": ["stream2py/buffer_reader.py: BufferReader.__next__, BufferReader.__iter__, BufferReader.read", "stream2py/stream_buffer.py: StreamBuffer._run"]}
{"id": "C96", "title": "A consumer at most maxlen behind misses nothing", "statement": "auto_drop=True, buffer of maxlen items: if at no moment more than maxlen stored items have not been received by the consumer, then what it received followed by what it can read is exactly all that was stored; and a for loop over the reader (default arguments, not broken off) gets everything stored now within two of its statements per unread item (two more if it is about to look at the stop event, the stream not stopped).", "quantifier": "all maxlen, all sources, all schedules in which the consumer keeps up", "why_tests_cant": "The race of eviction against reading, for every schedule that keeps up", "anchors": ["stream2py/stream_buffer.py: StreamBuffer._run", "stream2py/buffer_reader.py: BufferReader.__iter__, BufferReader.read"]}
{"id": "C97", "title": "What a consumer that fell behind gets next", "statement": "auto_drop=True, buffer of maxlen items (not 0): if the last item the consumer received was the p-th stored one, what it can read now are exactly the stored items after the p-th that are among the newest maxlen stored, in order: it misses just the evicted ones.", "quantifier": "all maxlen, all sources, all schedules, all consumers", "why_tests_cant": "Exact accounting of losses for every history", "anchors": ["stream2py/stream_buffer.py: StreamBuffer._run", "stream2py/buffer_reader.py: BufferReader.read, BufferReader.range"]}
{"id": "C98", "title": "After join() a for loop drains the rest and ends", "statement": "If start() is only called once join() has returned for earlier sessions, and join() has returned for a session: a for loop over a reader of that session (default arguments, auto_drop=True, any maxlen, not broken off), begun before or now waiting for its next read, gives its body exactly the items unread now, in order, and then ends, within 2*unread+3 of its own statements (until then it can always do the next one), whatever happens meanwhile (a new session, other readers); with an unbounded buffer the body has then been given everything stored in the session.", "quantifier": "all sources, all maxlen, all schedules, all sessions, all numbers of unread items", "why_tests_cant": "Termination and completeness for every schedule", "anchors": ["stream2py/stream_buffer.py: StreamBuffer.join, StreamBuffer.stop, StreamBuffer._run", "stream2py/buffer_reader.py: BufferReader.__iter__"]}
{"id": "C99", "title": "A reader that only takes new items gets a stretch of what was stored, once each", "statement": "For any sequence of appends, drops and reads by any number of readers: if one reader only uses read, next, range(only_new_items=True), tail(only_new_items=True) and peeks (and its key function does not turn None into a key), then everything handed to it followed by what it has not read yet is, in order and without repeats, part of what the buffer accepted; the keys handed to it strictly increase; and if the buffer is unbounded and never dropped, and its ranges start at or below every key, have no step, and it never uses tail, then nothing is missed.", "quantifier": "all key functions, maxlen, histories, ranges, steps, numbers of readers", "why_tests_cant": "All histories of mixed calls; tests cover a handful of literals", "anchors": ["stream2py/buffer_reader.py: BufferReader.range, BufferReader.tail, BufferReader.read, BufferReader.next", "stream2py/utility/sorted_deque.py: SortedDeque"]}
{"id": "C100", "title": "mk_stream_buffer from read_stream to the consumer", "statement": "In a with mk_stream_buffer(read_stream, ...) block (enumerate_data=True, a key increasing in the index, the body does not restart the stream): whatever the consumer of one reader received, followed by what it can still read, is in order a part of (0, d0), (1, d1), ... where dn is what the n-th call of read_stream returned; every item received is (n, dn) for its n and the numbers strictly increase; with maxlen=None, auto_drop=True nothing is missing but an item in the hands of the reading thread; and a for loop that is not broken off and has done two statements per unread item has given its body everything stored when counting began.", "quantifier": "all read functions, maxlen, auto_drop, numbers of reads, schedules, ways to leave the body", "why_tests_cant": "All read functions and schedules; tests use one deterministic source", "anchors": ["stream2py/simply.py: mk_stream_buffer", "stream2py/stream_buffer.py: StreamBuffer._run", "stream2py/buffer_reader.py: BufferReader.read, BufferReader.__iter__"]}
{"id": "C101", "title": "StreamSource from read() to the readers, and closed with them", "statement": "For a StreamSource used by one thread, with any settings, any number of readers opened and closed in any order, its consumers and thread in any schedule: what the consumer of one reader received, followed by what it can still read, is in order a part of what read() of the source returned; with configure_buffer(maxlen=None, auto_drop=True) it is all of it but for an item on its way or refused because of its key; the source is opened, read and closed according to its protocol (if info does not raise); and once the source has stopped its stream buffer (on the last close of a reader), its thread does at most eight more steps, with at most one more read(), and until close() of the source has been called it can always do one.", "quantifier": "all sources, settings, numbers of readers, orders of opening and closing, schedules", "why_tests_cant": "All interleavings of users, consumers and the reading thread", "anchors": ["stream2py/stream_source.py: StreamSource.open_reader, StreamSource._handle_reader_closed, StreamSource.exit", "stream2py/stream_buffer.py: StreamBuffer._run, StreamBuffer.stop", "stream2py/buffer_reader.py: BufferReader.close"]}
{"id": "C102", "title": "mk_stream_buffer uses the instances of open_stream one at a time", "statement": "For a stream made with mk_stream_buffer, started only when no thread of an earlier session is alive and whose info does not raise, whatever open_stream, read_stream and close_stream return or raise and whenever the stream is stopped: open_stream is never called while an instance is open, read_stream and close_stream are only called with the instance got for the running session, each instance got is closed exactly once, by the end of its session, and none is left open. Both conditions are needed: a restart while the old thread is on its way out makes it close the new instance, whose first read_stream then fails, and leaves the old one open for ever; an info that raises leaves the instance open.", "quantifier": "all user functions, worlds they act on, numbers of sessions, schedules", "why_tests_cant": "All schedules, failures and restarts; tests open and close once", "anchors": ["stream2py/simply.py: SimplifiedSourceReader", "stream2py/stream_buffer.py: StreamBuffer.start, StreamBuffer._run"]}
{"id": "C103", "title": "The documented file example gives the lines of the file", "statement": "For the example in the documentation (mk_stream_buffer with open(FILE), next(file, None), file.close(), key read_data[0], maxlen=None), with any file: each session reads the file from its first line and gets the lines numbered from 0, and (k, None) for every read beyond the end; no exception leaves the reading thread; after 6n+15 of its steps the first n lines are stored, in order, none missing; and range(start=lo, stop=hi) on any reader returns exactly the lines lo to hi with their numbers once the thread has done 6(hi+1)+15 steps.", "quantifier": "all files, ranges, schedules, numbers of sessions, reader settings", "why_tests_cant": "All file contents, lengths and schedules; the example sleeps one second and hopes", "anchors": ["stream2py/simply.py: mk_stream_buffer", "stream2py/buffer_reader.py: BufferReader.range", "stream2py/stream_buffer.py: StreamBuffer._run"]}
{"id": "C104", "title": "A call on a SortedDeque that raises leaves it as it was", "statement": "Whenever append, insert, insert_right, remove, drop, clear, or the assignment or deletion of maxlen or key raises (a key function or a comparison that raises, a key that is too small, a full deque, an item that is not there, an invalid bound), the deque is as it was before the call.", "quantifier": "all deques, histories, key functions, comparisons and what they raise", "why_tests_cant": "All points at which user code can raise; tests use well-behaved keys", "anchors": ["stream2py/utility/sorted_deque.py: SortedDeque", "stream2py/utility/sorted_collection.py: SortedCollection"]}
{"id": "C105", "title": "Whatever raises, keys and items of a SortedDeque stay in step and searches answer truly", "statement": "With any key functions and comparisons, which may raise or contradict each other, and after any calls, whether they raised or not: there is one key for each item, which is the key of that item; what find, find_le, find_lt, find_ge, find_gt or find_last_gt return is an item of the deque whose key has compared as asked; what they raise was raised by a comparison with one of the keys, or is ValueError, the comparisons at the place where the item would have to be saying that it is not there; and append accepts an item only if the deque is empty or the new key compared greater than the last one, and then puts it last.", "quantifier": "all histories, key functions, comparisons and what they raise", "why_tests_cant": "All histories of calls and all misbehaviour of keys; tests use integers", "anchors": ["stream2py/utility/sorted_deque.py: SortedDeque", "stream2py/utility/sorted_collection.py: SortedCollection"]}
{"id": "C106", "title": "Keys that cannot be compared do not mix with others", "statement": "If some keys cannot be compared (None, say, among numbers: TypeError), then after any calls either all keys in a SortedDeque can be compared and its items are sorted by them, or all items have one and the same key that cannot be compared. While an item with such a key is in the deque nothing can be added, and no item with such a key can be added unless the deque is empty: the call raises and changes nothing.", "quantifier": "all histories and key functions, every set of keys that cannot be compared", "why_tests_cant": "All histories; tests use integers", "anchors": ["stream2py/utility/sorted_deque.py: SortedDeque", "stream2py/utility/sorted_collection.py: SortedCollection"]}
{"id": "C107", "title": "A for loop over a finished session ends", "statement": "If every start() finds the threads of earlier sessions ended: once the source of a session has been closed, a for loop over one of its readers (peek and strict_n off), wherever it is and unless it is left before, ends by itself within 2 * unread + 3 of its own statements (until then it can always do the next one), for every maxlen and auto_drop, whatever other readers, later sessions and manual drops do.", "quantifier": "all settings, histories, numbers of unread items and interleavings", "why_tests_cant": "All schedules after the end; a test sees one", "anchors": ["stream2py/buffer_reader.py: BufferReader.__iter__, __next__", "stream2py/stream_buffer.py: StreamBuffer.start, stop, drop"]}
{"id": "C108", "title": "The documented drop loop misses fewer than maxlen items", "statement": "mk_stream_buffer(read_stream, auto_drop=False, maxlen=m) with a read_stream that gives some data and then raises, and the loop of the documentation: for i in reader: ...; stream_buffer.drop(). When the loop has ended by itself its body has been given the numbered data in order from the first on, and fewer than m of them, the last ones, have not come; with maxlen=1 none is missing. Nobody calls stop() or start() in the body, and at no moment more is dropped than was received.", "quantifier": "all data, bounds, keys increasing in the index, and interleavings", "why_tests_cant": "All interleavings of source thread and loop; the documented example is not run by a test", "anchors": ["stream2py/simply.py: mk_stream_buffer", "stream2py/buffer_reader.py: BufferReader.__iter__", "stream2py/stream_buffer.py: StreamBuffer._run, drop"]}
{"id": "C109", "title": "The documented drop loop prints all the data", "statement": "In the example at the top of simply.py (counter over range(10), auto_drop=False, maxlen=2, each item dropped in the body of the loop) the loop is given all ten numbers before it ends.", "quantifier": "all interleavings", "why_tests_cant": "It fails only in a rare interleaving", "anchors": ["stream2py/simply.py: module docstring, mk_stream_buffer", "stream2py/buffer_reader.py: BufferReader.__iter__, __next__"]}
{"id": "C110", "title": "What was read before an exception of read() is kept", "statement": "A source whose read() may raise at any time and whose data have increasing keys; start() is called only when no earlier thread is alive. What is stored in a session, followed by the item on its way, is all the data read() returned since the open() of that session, in order. If a read() raised it was the last one of the session, and everything returned before it is stored.", "quantifier": "all source objects, settings, histories and interleavings", "why_tests_cant": "The exception may come at any read; a test tries one", "anchors": ["stream2py/stream_buffer.py: StreamBuffer._run, start", "stream2py/source_reader.py: SourceReader.read"]}
{"id": "C111", "title": "A broken HTTP connection tears no hole", "statement": "StreamBuffer(HTTPResponseReader(...)), whatever the network does (any piece may raise) and whether or not pieces can be decoded; the clock moves on between two reads and start() is called only when no earlier thread is alive. What session b stores is the decoded beginning of the response its open() got, piece by piece from the first, none skipped; if a read raised, that is what the next piece gave, and nothing is stored after it. A consumer gets just that with maxlen=None, and with auto_drop=False for every maxlen as long as nothing is dropped (also when the response has ended: compare C60).", "quantifier": "all responses, errors, encodings, settings, histories and interleavings", "why_tests_cant": "Errors at every position of every response", "anchors": ["stream2py/sources/http.py: HTTPResponseReader.open, read, key", "stream2py/stream_buffer.py: StreamBuffer._run"]}
{"id": "C112", "title": "The documented LineSourceReader delivers the lines of the file", "statement": "StreamBuffer(LineSourceReader(file)) as in the package documentation; start() is called only when no earlier thread is alive. Session b stores (0, line 0), (1, line 1), ... of the file its open() found, each line once and in order, numbered from 0 in every session, then numbered empty lines; if reading a line raises, all lines before it. With maxlen=None a consumer gets just that, and range(start=a, stop=z) of any reader, once line z is stored, gives the lines numbered a to z.", "quantifier": "all files, numbers of lines, positions of errors, restarts, a, z, interleavings", "why_tests_cant": "All files and schedules", "anchors": ["stream2py/__init__.py: LineSourceReader (docstring)", "stream2py/stream_buffer.py: StreamBuffer._run, start", "stream2py/buffer_reader.py: BufferReader.range"]}
{"id": "C113", "title": "A buffer over a file holds no more than the file", "statement": "With LineSourceReader and maxlen=None (as the documentation advises for objects with fixed lengths like a file) the number of buffered items stays bounded by the number of lines.", "quantifier": "all files and lengths of execution", "why_tests_cant": "Growth shows only in the long run", "anchors": ["stream2py/__init__.py: LineSourceReader (docstring)", "stream2py/stream_buffer.py: StreamBuffer._run"]}
{"id": "C114", "title": "next(stream_buffer) never returns an item twice", "statement": "Within one session, calls of next(stream_buffer) or stream_buffer() never return the same stored item twice.", "quantifier": "all histories, callers and interleavings", "why_tests_cant": "Needs every interleaving of start, stop and next", "anchors": ["stream2py/stream_buffer.py: StreamBuffer.__next__, __call__, stop"]}
{"id": "C115", "title": "next(stream_buffer) is one reader of the session", "statement": "Whatever any number of threads do, the items returned through one of the readers that next(stream_buffer) makes, then what that reader can still read, are in order and each once a part of what is stored in the session. If, from a moment when next(stream_buffer) was not called since the last stop() and up to the next start() or stop(), only one thread calls next(stream_buffer) or stream_buffer(): every call returns data or None or raises StopIteration, all are answered by one reader of the current session, and with maxlen=None the items returned, then those this reader can still read, are exactly those stored in the session. A call returns within six statements of its thread, unless start() or another call on the same reader is in progress.", "quantifier": "all histories, settings, items, keys, callers and interleavings", "why_tests_cant": "Every interleaving of the callers with the reading thread and with start and stop", "anchors": ["stream2py/stream_buffer.py: StreamBuffer.__next__, __call__, stop, mk_reader", "stream2py/buffer_reader.py: BufferReader.__next__"]}
{"id": "C116", "title": "The documented recording loop gets a recording", "statement": "The example of the package documentation: a StreamBuffer with maxlen=n, a reader of it, and n times next(reader) while the stream is running: every call returns an item, so that the loop receives n items.", "quantifier": "all n, sources and interleavings", "why_tests_cant": "Depends on when the items come", "anchors": ["stream2py/__init__.py: module docstring, Example", "stream2py/buffer_reader.py: BufferReader.__next__"]}
{"id": "C117", "title": "A session of at most maxlen items is kept whole for the reader", "statement": "auto_drop=True, maxlen=m. As long as no more than m items were stored in a session, what a consumer has received by next, for or blocking reads, then what it can still read, are exactly the items stored, however slow it is; in executions where start() is called only when no earlier thread is alive, and no more than m items were returned by read(), these are what read() returned, up to the one item in the hands of the thread or refused for its key. The same of a single caller of next(stream_buffer).", "quantifier": "all m, sources, keys, histories, readers and interleavings", "why_tests_cant": "All relative speeds of source and consumer", "anchors": ["stream2py/stream_buffer.py: StreamBuffer._run, start, __next__", "stream2py/buffer_reader.py: BufferReader.__next__, __iter__, read"]}
{"id": "C118", "title": "Every way of reading gets the stored items, in order and each once", "statement": "A reader is used in any mixture of read(...) with any arguments, reader.next(...), next(reader), for, blocking reads and peeks, while the stream runs, restarts or stops, and other readers do anything. What its calls returned, peeks apart, then what it can still read, is in order and each once a part of what was stored in its session. It is exactly what was stored as long as the buffer retains everything stored, in particular: with maxlen=None and auto_drop=True; with auto_drop=True as long as no more than maxlen items were stored; with auto_drop=False (start() being called only when no earlier thread is alive) as long as nothing was dropped.", "quantifier": "all sources, settings, arguments, histories, readers and interleavings", "why_tests_cant": "All mixtures of calls under all schedules", "anchors": ["stream2py/stream_buffer.py: StreamBuffer._run, start, drop", "stream2py/buffer_reader.py: BufferReader.read, peek, next, __next__, __iter__"]}
{"id": "C119", "title": "Polling with only_new_items gets the stored items, in order and each once", "statement": "As C118, the reader also using range(..., only_new_items=True) with any bounds, rounding and step and tail(only_new_items=True), provided that key(None) does not return a key: what its calls returned, peeks apart, then what it can still read, is in order and each once a part of what was stored in its session, and the keys of what they returned increase. If it does not use tail or step, and start is never above the key of a stored item, it is exactly what was stored as long as the buffer retains everything stored.", "quantifier": "all sources, settings, bounds, histories, readers and interleavings", "why_tests_cant": "All mixtures of calls under all schedules", "anchors": ["stream2py/stream_buffer.py: StreamBuffer._run", "stream2py/buffer_reader.py: BufferReader.range, tail, read"]}
{"id": "C120", "title": "What the calls on a SortedDeque do when they return", "statement": "With any key functions and comparisons, which may raise or contradict each other, and after any calls, whether they raised or not. An insert (insert_right) that returns has put the item between two items of which the first compared less than it and the second not (it compared not less than the first, and less than the second), and taken nothing away. A remove that returns has removed one item, equal to its argument. A drop(n) that returns has removed the first n, clear() all. These change neither key nor maxlen. Assigning or deleting maxlen or key sorts the items anew, by the (old or new) key; assigning maxlen sets the bound and keeps the newest, deleting it removes it and keeps all; assigning key removes the bound; deleting key keeps it and compares the items themselves.", "quantifier": "all histories, key functions and comparisons", "why_tests_cant": "All histories, with exceptions at any point", "anchors": ["stream2py/utility/sorted_deque.py: SortedDeque.__init__, maxlen, key, clear, drop, remove", "stream2py/utility/sorted_collection.py: SortedCollection.insert, insert_right, remove, key"]}
{"id": "C121", "title": "A reader can look back over the recent past at any moment", "statement": "Whatever the stream does meanwhile, range(start, stop, step) returns the items with keys in the closed interval (every step-th) out of the end of what was stored in the session up to some moment of the call: with auto_drop=True out of the newest maxlen items stored, with auto_drop=False (no restart while an earlier thread is alive) out of those not dropped. So with auto_drop=True, if no more than maxlen items with keys at or above start have been stored, it is complete: everything stored in the session with a key in the interval. tail() returns the item stored last, head() the oldest of the newest maxlen.", "quantifier": "all sources, settings, bounds, histories and interleavings", "why_tests_cant": "Every schedule of source and readers", "anchors": ["stream2py/buffer_reader.py: BufferReader.range, head, tail", "stream2py/stream_buffer.py: StreamBuffer._run, _SourceBuffer", "stream2py/utility/sorted_deque.py: SortedDeque.range, append"]}
{"id": "C122", "title": "range(only_new_items=True) with an ordinary key function gives exactly the unread items of the interval", "statement": "If the key function raises TypeError when called on None (as subscripting does), range(start, stop, step, only_new_items=True, ...) on a reader that has a cursor and nothing unread returns None or raises ValueError (ignore_no_item_found); with stop_ge and no retained key at or above stop the same; in all other cases it returns the unread items between the bounds (rounded as asked), every step-th of them.", "quantifier": "all histories, bounds, flags and readers", "why_tests_cant": "Every history and every combination of flags", "anchors": ["stream2py/buffer_reader.py: BufferReader.range"]}
{"id": "C123", "title": "Without re-entering readers the locking never deadlocks", "statement": "As long as no reader calls range(only_new_items=True) with a cursor, some thread using or waiting for the lock of a buffer can always go on, and if nobody asks for it any more, all threads get out whatever the schedule.", "quantifier": "all numbers of threads, programs and interleavings", "why_tests_cant": "Every interleaving of any number of threads", "anchors": ["stream2py/utility/reader_writer_lock.py: RWLock", "stream2py/utility/locked_sorted_deque.py: RWLockSortedDeque", "stream2py/buffer_reader.py: BufferReader.range"]}
{"id": "C124", "title": "What strict_n does", "statement": "read(n, strict_n=True) with n > 1 returns exactly the next n unread items if more than n are unread and raises ValueError with 1 to n unread items; with none it returns None or raises ValueError. If it raises, returns None or peeks the cursor stays, else it moves to the last item returned.", "quantifier": "all histories, readers and n", "why_tests_cant": "Every history", "anchors": ["stream2py/buffer_reader.py: BufferReader.read"]}
{"id": "C125", "title": "The peek default of a reader affects iteration only", "statement": "peek given to mk_reader makes __next__ and the for loop peek; every other call returns the same and moves the cursor the same whether it was given or not.", "quantifier": "all buffers, readers and calls", "why_tests_cant": "Every buffer, reader and call", "anchors": ["stream2py/buffer_reader.py: BufferReader.__init__, __next__, read, range, head, tail"]}
{"id": "C126", "title": "source_reader_info with auto_drop=True", "statement": "With auto_drop=True and maxlen not 0, once an item of the latest session has been stored, source_reader_info is the info that the source reported at the open of that session whatever happens meanwhile (reads, evictions, stop(), the death of the thread) short of another start(); the call always returns.", "quantifier": "all executions and interleavings", "why_tests_cant": "Every interleaving of the call with the source thread and consumers", "anchors": ["stream2py/stream_buffer.py: StreamBuffer.source_reader_info"]}
{"id": "C127", "title": "Readers of a StreamSource that are each closed once", "statement": "Every reader handed out is a new one. If no reader is closed twice and nobody replaces onclose, closing succeeds, the source is stopped exactly when the last open reader is closed, and a reader that was live when returned stays live until it is closed (unless an exception ends the reading thread).", "quantifier": "all orders of opening and closing and all interleavings with the stream", "why_tests_cant": "Every order of calls", "anchors": ["stream2py/stream_source.py: StreamSource.open_reader, _handle_reader_closed", "stream2py/stream_buffer.py: StreamBuffer.mk_reader"]}
{"id": "C128", "title": "Join before restart: reading stops when the buffer is full, and nothing but the source ends a session", "statement": "If join() has returned for every earlier session before each start(): with auto_drop=False the source is read only while the buffer of the session has room; with any setting but maxlen=None with auto_drop=False a session ends by no exception but of the source or of a refused key. If next(stream_buffer) is called only between start() and stop(), it reads from the buffer of the latest session.", "quantifier": "all settings, sources and interleavings", "why_tests_cant": "Every schedule of the threads", "anchors": ["stream2py/stream_buffer.py: StreamBuffer._run, start, stop, join, __next__"]}
{"id": "C129", "title": "What closed of a SourceReader tells", "statement": "For a SourceReader that does not keep the flag itself, closed is False exactly inside with blocks over the source: open() and close(), also by a StreamBuffer, do not change it. Used by with blocks only, closed is False exactly while the source is open.", "quantifier": "all histories of with, open and close, raising or not", "why_tests_cant": "Every history", "anchors": ["stream2py/source_reader.py: SourceReader.__enter__, __exit__, closed"]}
{"id": "C130", "title": "Assigning auto_drop while the stream runs", "statement": "auto_drop may be assigned True or False at any time. Between assignments the stream buffer does exactly what one constructed with the value last assigned would do. Whatever is assigned when, what a session's buffer retains is the end of what was stored in the session (at most maxlen items), and what a consumer received followed by what it can read is in order and without repetition a part of it. Once it is False and stays so (start() only when no earlier thread is alive), what the buffer held at that moment followed by what was stored since is: at most one lost item, what was dropped by hand, what is retained. Once it is True and stays so (and no drop() is under way), the buffer is the newest maxlen of what it held and what was stored since. A thread that waits because the buffer is full goes on reading (within three steps of its own) when True is assigned and the session is not stopped.", "quantifier": "all histories of assignments, settings, sources and interleavings", "why_tests_cant": "Every moment of the assignment relative to the loop of the thread", "anchors": ["stream2py/stream_buffer.py: StreamBuffer.__init__, _run, drop"]}
{"id": "C131", "title": "A stream buffer that was never started", "statement": "As long as start() has not been called, no other call touches the source, starts anything or gives data, however the calls of several threads interleave: stop() and join() raise AttributeError, drop() RuntimeError with auto_drop=True and AttributeError otherwise, mk_reader(), attach_reader(), next(stream_buffer) and stream_buffer() StreamNotStartedError; is_running is False and source_reader_info None.", "quantifier": "all histories without start(), all interleavings", "why_tests_cant": "Every history", "anchors": ["stream2py/stream_buffer.py: StreamBuffer.stop, drop, join, mk_reader, attach_reader, __next__, __call__, is_running, source_reader_info"]}
{"id": "C132", "title": "Threads that take turns with one reader split its items", "statement": "Threads that share a BufferReader and call it one at a time (a lock of their own), while others append, drop and use other readers at any moment: each call of read or next gets items with larger keys than all calls on the reader before it, in order, and only items that were appended; no item is given to two of them. On an unbounded buffer from which nobody drops, when no call is in progress, every item whose append returned was given to one of them or can still be read.", "quantifier": "all programs of all threads, all interleavings of their statements", "why_tests_cant": "Every interleaving of lock statements and accesses", "anchors": ["stream2py/buffer_reader.py: BufferReader.read, next", "stream2py/utility/locked_sorted_deque.py: RWLockSortedDeque"]}
{"id": "C133", "title": "What can be raised", "statement": "The calls of a StreamBuffer raise nothing but: stop() AttributeError; drop(n) RuntimeError exactly in the setting auto_drop=True, otherwise AttributeError (not started) or IndexError (n>0); mk_reader() and attach_reader() StreamNotStartedError; next(stream_buffer) StreamNotStartedError or TypeError; the info property of the buffer AttributeError. The reading thread raises outside of source.read() and the append only AttributeError, or TypeError with auto_drop=False; and if every restart finds the earlier threads ended, only that TypeError, and only with auto_drop=False and maxlen=None.", "quantifier": "all histories, all interleavings, all sources", "why_tests_cant": "Every history and interleaving", "anchors": ["stream2py/stream_buffer.py: StreamBuffer.stop, drop, mk_reader, attach_reader, __next__, _run"]}
{"id": "C134", "title": "Sooner or later, under a fair scheduler", "statement": "In an endless execution in which the scheduler never forgets a thread that can go on, and in which the consumer does not break off its loop: after the stop event of a session is set its source gets closed; after an exception in the thread too; with auto_drop=True the source is read without end until it is closed; a `for x in reader` loop over an unbounded buffer gets every item stored so far (or the session stops); after the stop the loop ends; a reader waiting on a buffer that holds an item it has not read returns with it (or the session stops); and the loop over a stream of SimpleCounterString gets exactly the labels from start to stop.", "quantifier": "all infinite executions, fair to the reading thread and to the consumer", "why_tests_cant": "Unit tests never see an infinite execution or all schedules", "anchors": ["stream2py/stream_buffer.py: StreamBuffer._run, stop", "stream2py/buffer_reader.py: BufferReader.__iter__, __next__, read", "stream2py/examples/source_reader.py: SimpleCounterString"]}
{"id": "C135", "title": "A stream buffer the program no longer refers to", "statement": "If the program lets go of a running StreamBuffer without stop(), it is not finalized: its thread goes on, the stop event is not set and the source not closed until an exception ends the reading, and readers made before keep working. __del__ can only run after the session is over; it is a call of stop() that calls nothing on the source and changes nothing a reader can see.", "quantifier": "all histories, all interleavings, every moment of letting go and of finalization", "why_tests_cant": "Finalization happens at moments no test controls", "anchors": ["stream2py/stream_buffer.py: StreamBuffer.__del__, __exit__, stop, _set_read_to_buffer_thread_and_source_buffer"]}
{"id": "C136", "title": "After a start() that raised", "statement": "While the latest start() is one that raised in source.open() or source.info (and none is in progress): mk_reader() and attach_reader() raise StreamNotStartedError, is_running is True until the event of that start() is set (stop() does it), stop() returns, drop() raises, source_reader_info is None, join() raises RuntimeError, no thread was started for it, and readers of all earlier sessions see that they are stopped.", "quantifier": "all histories, all interleavings", "why_tests_cant": "Every history before the failed start", "anchors": ["stream2py/stream_buffer.py: StreamBuffer.start, _open, mk_reader, attach_reader, is_running, stop, drop, join"]}
{"id": "C137", "title": "A StreamSource starts its stream once", "statement": "source.open() succeeds at most once in the life of a StreamSource; open_reader() before the stop by the last close gives a reader of a running stream (unless an exception ended the reading), after it a reader of the stopped stream; if the first open_reader() fails, every later one raises StreamNotStartedError; mk_reader() on the stream buffer raises only StreamNotStartedError, only after a failed open_reader(), and then always.", "quantifier": "all histories of open_reader, close, mk_reader and the background thread", "why_tests_cant": "Every history", "anchors": ["stream2py/stream_source.py: StreamSource.open_reader"]}
{"id": "C138", "title": "What closing a reader does", "statement": "Closing a reader (or leaving a with-block over it) that came neither from open_reader() nor had onclose assigned raises AttributeError; every other close returns, and the function last assigned to onclose is called.", "quantifier": "all histories", "why_tests_cant": "Every history", "anchors": ["stream2py/buffer_reader.py: BufferReader.close, onclose", "stream2py/stream_source.py: StreamSource.open_reader"]}
{"id": "C139", "title": "What ContextualizeCall does", "statement": "Wrapping a callable, or something already wrapped to any depth: calling the wrapper calls what the callable calls; entering and leaving run the enter and exit functions of the innermost wrapping on the callable; accepted are exactly a callable, an enter function with at least one parameter and a callable exit function; the rest is rejected with TypeError (ValueError for an enter function whose signature cannot be told).", "quantifier": "all callables, enter and exit functions, all nesting depths", "why_tests_cant": "Every nesting", "anchors": ["stream2py/util.py: ContextualizeCall"]}
{"id": "C140", "title": "The info of a reader made by mk_reader", "statement": "A reader of mk_reader() never given to attach_reader has as source_reader_info exactly the info the source reported at the open of the session it reads, and the stop event of that session.", "quantifier": "all histories, any number of sessions", "why_tests_cant": "Every history", "anchors": ["stream2py/stream_buffer.py: _SourceBuffer.mk_reader", "stream2py/buffer_reader.py: BufferReader.source_reader_info"]}
{"id": "C141", "title": "A StreamSource shared by threads with care", "statement": "If the calls of open_reader and close of several threads do not overlap, no close of an open reader raises and the stream is stopped exactly by the close that leaves no reader open. Once a first reader was opened alone, calls may overlap: none fails, there is one stream buffer, the source is not opened again and all readers read the same session.", "quantifier": "all programs of all threads, all interleavings", "why_tests_cant": "Every interleaving", "anchors": ["stream2py/stream_source.py: StreamSource.open_reader"]}
{"id": "C142", "title": "Interrupts inside a locked section", "statement": "A KeyboardInterrupt that strikes a reader inside its section, or a writer after its last change, is harmless: writers stay alone, each read section saw one state of whole operations, and when all have left, the lock is free and the data are those of the operations done. Even a writer struck in the middle leaves the lock sound.", "quantifier": "any number of threads, all interleavings, all such interrupt points", "why_tests_cant": "Every interrupt point", "anchors": ["stream2py/utility/locked_sorted_deque.py: RWLockSortedDeque.reader_lock, RWLockSortedDeque.writer_lock", "stream2py/utility/reader_writer_lock.py: RWLock"]}
{"id": "C143", "title": "mk_stream_buffer with enumerate_data=False skips None", "statement": "With enumerate_data=False, and restarts only after the thread has ended, what a session stores (or has in hand, or refuses) is exactly what read_stream returned other than None, in order.", "quantifier": "all executions of settled sessions", "why_tests_cant": "Every execution", "anchors": ["stream2py/simply.py: mk_stream_buffer"]}
{"id": "C144", "title": "A LineSourceReader used directly, in any order", "statement": "The documented LineSourceReader with open(), read(), close() called in any order: before the first open() that succeeds read() and close() raise AttributeError; while the file is open the k-th read() since the last successful open() gets the k-th line (the empty line beyond the end), numbered by the reads answered since the last open(), or raises what readline raises; after close() read() raises ValueError and closing again does nothing.", "quantifier": "all histories of open, read, close; all outcomes of opening and reading the file", "why_tests_cant": "Every history of calls", "anchors": ["stream2py/__init__.py: LineSourceReader"]}
{"id": "C145", "title": "An HTTPResponseReader used directly, in any order", "statement": "read() raises AttributeError before the first successful open() and after close() until the next one, close() never raises; while open, the k-th read() since the last successful open() gets the k-th piece of the response (empty beyond the end), decoded, or raises what the response or the decoding raises; after an exception the next read() gets the next piece. The n-th answer carries the n-th reading of the clock.", "quantifier": "all histories, all responses", "why_tests_cant": "Every history of calls", "anchors": ["stream2py/sources/http.py: HTTPResponseReader.open, read, close"]}
{"id": "C146", "title": "The source reader of mk_stream_buffer used in any order", "statement": "Each open(), read(), close() calls the corresponding function given to mk_stream_buffer once, read_stream and close_stream with the instance open_stream returned last (None before), also after close(), and nothing else acts on the world. With enumerate_data the data are numbered 0, 1, 2, ... from each open() on, also if it raised and if there is no open_stream. For the documented file example: k-th read since open() gives (k, line k), None beyond the end; TypeError before open(), ValueError after close().", "quantifier": "all functions, all histories", "why_tests_cant": "Every history of calls", "anchors": ["stream2py/simply.py: mk_stream_buffer"]}
{"id": "C147", "title": "SimpleCounterString used directly, in any order", "statement": "The k-th read() since the last open() gives s followed by start+k, None from stop on; read() without open() or after close() raises TypeError; open() and close() never raise; info counts the calls of open().", "quantifier": "all start < stop, all histories", "why_tests_cant": "Every history of calls", "anchors": ["stream2py/examples/source_reader.py: SimpleCounterString"]}
{"id": "C148", "title": "A StreamSource object is opened once, from its initial state", "statement": "For every StreamSource subclass object: nothing is done with it before the first open_reader(); it is opened from the state it was made in; in all else its histories are those of a StreamSource with the same calls; what its read() answers to the source thread is what it answers, called again and again, from the state that open() left; info of the readers is taken in that state. If then read() never raises and keys increase, the stream never dies (any configuration but maxlen=None with auto_drop=False), and with configure_buffer(maxlen=None) what a reader received, can read and the thread holds is exactly what the object returned, without gap.", "quantifier": "all objects and states, all orders of configuring, opening and closing readers, all schedules", "why_tests_cant": "Every object, every interleaving of readers and source thread", "anchors": ["stream2py/stream_source.py: StreamSource", "stream2py/stream_buffer.py: StreamBuffer"]}
{"id": "C149", "title": "The counter StreamSource example delivers all of its strings", "statement": "SimpleCounterString(start, stop) of examples/stream_source.py with configure_buffer(maxlen=None): the source thread reads s{start}, s{start+1}, ... one per read and nothing after s{stop-1}; after 6*(stop-start)+10 statements of it a reader has received or can read exactly all of them; a for loop over a reader, not broken off, gets them all in order, each once, within two further steps per unread item (two more if it is just looking at the stop event and the stream is not stopped); info says open_count 1; the stream never dies.", "quantifier": "all start and stop, all orders of opening and closing readers, all schedules", "why_tests_cant": "Every schedule", "anchors": ["stream2py/examples/stream_source.py: SimpleCounterString", "stream2py/stream_source.py: StreamSource"]}
{"id": "C150", "title": "Whoever waits for the buffer lock gets it", "statement": "In every infinite execution that is strongly fair to the threads (a lock that is free again and again is eventually given to each thread waiting for it) and in which no reader section is entered inside a reader section: every thread that asks for the writer lock enters, performs its operation and leaves; every section ends; every thread that asks for the reader lock enters provided the writers pause again and again, in particular if only one thread ever writes (the thread that reads the source). Two writers that take turns can keep a reader out for ever.", "quantifier": "all numbers of threads, all writer operations, all infinite strongly fair schedules", "why_tests_cant": "A liveness property of infinite executions", "anchors": ["stream2py/utility/reader_writer_lock.py: RWLock, _LightSwitch", "stream2py/utility/locked_sorted_deque.py: RWLockSortedDeque.reader_lock, writer_lock"]}
{"id": "C151", "title": "A for loop may be broken off and the reading go on", "statement": "A for loop over a reader may be left (break, return, an exception in its body or during its sleep) exactly while its body runs or it sleeps, a blocking read while it sleeps. Leaving has no effect: buffers, readers with their cursors, what anyone received, other consumers and the source thread are as they were. With an unbounded buffer (auto_drop=True) the consumer may then use the reader as it likes and begin a new loop: within two of its statements per unread item everything stored has been received, each item once and in order over all the loops, nothing repeated or skipped at the break.", "quantifier": "all histories, schedules, moments of leaving, numbers of loops", "why_tests_cant": "Every moment at which a loop may be left, under every schedule", "anchors": ["stream2py/buffer_reader.py: BufferReader.__iter__, BufferReader.__next__, BufferReader.read"]}
{"id": "C152", "title": "Iterating over the stream buffer itself", "statement": "for x in stream_buffer, any number of such iterators at once. Making the iterator does nothing; its first next makes a reader of its own, of the session current at that moment (waiting for a start() in progress), and it stays with that session. Without a session the first next raises StreamNotStartedError. Apart from that the calls of next give single items and then, once the iterator ended or was closed, StopIteration for ever; None is never handed out and nothing else raised. What an iterator handed out, then what it can still hand out, is in order and each once a part of what is stored in its session; with an unbounded buffer (auto_drop=True) it is exactly that, from the first item, for every iterator; and then it hands out all stored so far within two statements per item, and two more, if the stream runs. A call of next is never stuck but for a start() in progress. When the source has been closed (start() being called only when no earlier thread is alive) an iterator that is not closed ends within 2n+3 statements, n being the items it had left; if it was at the loop body then, having handed out all of them (auto_drop=True).", "quantifier": "all settings, items, keys, histories, numbers of iterators and interleavings", "why_tests_cant": "Every interleaving of iterators with the reading thread, start and stop", "anchors": ["stream2py/stream_buffer.py: StreamBuffer.__iter__, mk_reader", "stream2py/buffer_reader.py: BufferReader.__iter__"]}
{"id": "C153", "title": "Moving the cursor of a reader", "statement": "After reader.last_item = x, for any x with a key, in the buffer or not, exactly the retained items with larger keys are unread; after del reader.last_item all retained items are; after any call without peek that hands out items (read, next, range, head, tail), exactly those with a larger key than the last item handed out. From there on, whatever is appended, dropped and read by others, if the reader only takes new items (and the key function does not turn None into a key): what it gets, then what it can still read, is, in order and each once, part of what was unread there and was accepted since. With an unbounded buffer, nothing dropped and calls that skip nothing it is exactly the items, retained or accepted since, with larger keys than x: those read before again, those not larger than x never. And a reader with the same settings that is put where another one stands (b.last_item = a.last_item) gets from the same calls, in the same history, exactly what the other would have got.", "quantifier": "all histories before and after, all items x, all calls, numbers of readers, maxlen", "why_tests_cant": "Positions are compared by key in a buffer that changes all the time: every position, every history", "anchors": ["stream2py/buffer_reader.py: BufferReader.last_item, read, range, head, tail"]}
{"id": "C154", "title": "Nothing hangs: join(), draining, the last close, loops over the stream buffer", "statement": "Under a fair scheduler (a thread that can go on is given its turns, calls of the source return or raise, loop bodies end): a caller waiting in join() for a session that was stopped or whose thread died returns from it; a for loop over a reader of a session for which join() has returned gives its body exactly what is unread, in order, and ends; once the last reader of a StreamSource is closed the source is closed, and for loops still going on over its readers end; a for loop over the stream buffer itself is given everything stored (unbounded buffer) or the session is stopped first, and after a stop it ends.", "quantifier": "every infinite fair execution, every source behaviour, every moment the loop, the stop and the join happen; join and drain: every start() after the join() of the earlier sessions; loops over the stream buffer: start() only when no earlier thread is alive", "why_tests_cant": "that something eventually happens cannot be tested: a run that has not finished yet and one that never will look the same", "anchors": ["stream2py/stream_buffer.py: StreamBuffer.join, stop, __iter__, _run", "stream2py/buffer_reader.py: BufferReader.__iter__", "stream2py/stream_source.py: StreamSource.open_reader, _handle_reader_closed"]}
{"id": "C155", "title": "A QuickSourceReader is not rewound by open()", "statement": "QuickSourceReader.open() only sets attributes. A subclass whose read() does not look at them (the reader of a list in the tests) goes on, in every new session, where the session before left off: over all sessions every datum is read once and in order, whatever the stops, restarts and deaths; what is not stored is in a thread's hands or is the one item with which a session died. After the data are exhausted later sessions read nothing. If the data increase no session ever dies and all of it is stored. A read() that goes by read_idx starts over in every session. The info of the k-th session is the time of the k-th open().", "quantifier": "all sources whose open() and close() leave alone what read() depends on; all lists of data; all executions (one sequence of answers), all settled executions (the rest), any number of sessions", "why_tests_cant": "Needs induction over arbitrary interleavings, restarts and deaths; the tests read a list once, in one session", "anchors": ["stream2py/source_reader.py: QuickSourceReader.open, close, info, key", "stream2py/stream_buffer.py: StreamBuffer.start, stop, _run", "stream2py/tests/test_quick_source_reader.py: SimpleQuickReader"]}
{"id": "C156", "title": "Which user code a sorted container runs, and how often", "statement": "Searching by key (find, find_le, find_lt, find_ge, find_gt, find_last_gt, range) never calls the key function and compares no items; it compares the given key with keys of stored items, at most d times per bisection when there are fewer than 2**d items (find makes one == more, find_last_gt one comparison only). A call with an item (append, insert, insert_right, remove, index, in, count) calls the key function exactly once, on that item, first; append then makes at most one comparison, insert at most d, the others at most 2*d and then == with stored items. When keys are ordered these are items with the same key only, in order and each once (count: all of them) - so indexing is not O(log n), as the docstring says, when keys are tied: for every n there is a container of n items where count compares n. Over any history of such calls, drop and clear, raising or not, the key function is called once per given item and never again; assigning maxlen or key calls it once per stored item.", "quantifier": "all containers reachable by any calls, all key functions and comparisons (also ones that raise or contradict each other), all items and keys, all sizes, all histories", "why_tests_cant": "A count on some sizes says nothing about all sizes, and the number of comparisons depends on what user code answers", "anchors": ["stream2py/utility/sorted_deque.py: SortedDeque.append, range, find_last_gt, index, count, __contains__", "stream2py/utility/sorted_collection.py: SortedCollection.insert, insert_right, remove, find, find_le, find_lt, find_ge, find_gt"]}
{"id": "C157", "title": "start() comes to an end", "statement": "Once a start() holds start_lock it is never stuck except inside open() or info of the source; it ends after at most 10 statements of its own, whatever other threads do in between, with exactly one outcome: the thread was started, or open() or info raised. Nothing else gives an outcome. Hence under a fair scheduler (and a source whose open() and info return or raise) start_lock is free again and again, so that mk_reader, attach_reader, is_running and other calls of start() do not wait for ever.", "quantifier": "all executions, all points of a start(), all infinite fair executions", "why_tests_cant": "Liveness over all interleavings and infinite runs", "anchors": ["stream2py/stream_buffer.py: StreamBuffer.start, stop, _set_read_to_buffer_thread_and_source_buffer, _open"]}
{"id": "C158", "title": "next, drop, source_reader_info and stop come to an end", "statement": "next(stream_buffer) gets to its read (or raises) within 3 statements of its own and waits for nothing but a start() in progress; source_reader_info returns (or raises) within 2 and drop(n) within 1 after the lookup of the buffer, and they wait for nothing; stop() can always be called and always returns (or raises). Whatever other threads do in between. Hence under a fair scheduler all these calls end, also when start() is called again and again.", "quantifier": "all executions, all points of such a call, all callers at once; all infinite fair executions", "why_tests_cant": "Liveness over all interleavings and infinite runs", "anchors": ["stream2py/stream_buffer.py: StreamBuffer.__next__, drop, source_reader_info, stop, mk_reader"]}
{"id": "C159", "title": "A start() whose thread cannot be launched", "statement": "If the last statement of start() raises (no thread to be had), the stream buffer is left as by a successful start() whose thread never does anything: every such execution has one of the ordinary model with the same buffers, readers, events and answers. The source has been opened and is never read or closed by that session; mk_reader() works, is_running is True until stop() is called, stop() returns, join() raises RuntimeError. If no earlier thread is left, nothing arrives any more until the next start(), which opens the source again without a close.", "quantifier": "all executions with any number of failing launches at any point, all settings and callers", "why_tests_cant": "A schedule and fault no test can produce at will; the absence of a close is about every continuation", "anchors": ["stream2py/stream_buffer.py: StreamBuffer.start, join, is_running, mk_reader, stop"]}
{"id": "C160", "title": "Items that change while they are in a SortedDeque", "statement": "If items are objects whose key changes while they are in a SortedDeque or SortedCollection (between any two calls, any number of times; == and < may change too): every call does and raises what it would for a list in which each item stands with the key it had when it was put in, until the deque is built anew (copy, maxlen or key assigned, pickling, from_jdict), which sorts by the keys of that moment. Searches and ranges go by the noted keys; in, count, index and remove find exactly the equal items noted under the key that the item asked for has now, so an item that changed its key is not found although it is there.", "quantifier": "all histories of calls and changes, all key functions, all item equalities and orders at each moment, all bounds", "why_tests_cant": "Histories of changes between calls are unbounded", "anchors": ["stream2py/utility/sorted_deque.py: SortedDeque", "stream2py/utility/sorted_collection.py: SortedCollection"]}
{"id": "C161", "title": "Iterating while the sorted sequence is used", "statement": "Iterators of iter(d) or reversed(d), any number at once, advanced between any calls. SortedDeque: an iterator gives, in order and each once, the items that were in the deque when it was made; after a call that put something in or took something out it raises RuntimeError, never a wrong item (an iterator of reversed(d) raises only once, then StopIteration, and not at all if it had given everything); clear() and assigning maxlen or key do not disturb it, nor do calls that raise. Otherwise StopIteration comes only after all items. SortedCollection: the k-th next gives the item at position k at that moment, of reversed the one at n-k, n the number of items when it was made; so going forward an item inserted behind those given is given in its turn, while inserting or removing in front gives an item twice or leaves one out without an error.", "quantifier": "all histories of calls, iterators and advances, all key functions and bounds", "why_tests_cant": "Every history", "anchors": ["stream2py/utility/sorted_collection.py: SortedCollection.__iter__, __reversed__", "stream2py/utility/sorted_deque.py: SortedDeque"]}
{"id": "C162", "title": "A consumer that starts at any moment goes on from the cursor", "statement": "Take a reader at any moment, wherever its cursor is: brought along by attach_reader, moved by assigning or deleting last_item, or left by calls made before. If from then on one consumer uses it (next, for, blocking read, no peeking), what it receives from then on, followed by what it can still read, is in order and without repetition a part of the items above the cursor that are retained at that moment or stored later; as long as the buffer retains all items of the session, it is all the items of the session above the cursor. For attach_reader the cursor is that of the reader in its earlier session.", "quantifier": "all histories before, all cursors, all schedules and source behaviours after, all bounds, other readers, drops, restarts", "why_tests_cant": "Every history and schedule", "anchors": ["stream2py/stream_buffer.py: StreamBuffer.attach_reader, BufferReader", "stream2py/buffer_reader.py: BufferReader"]}
{"id": "C163", "title": "Calls that go statement by statement under the lock look like single steps in the whole stream buffer", "statement": "Run the stream buffer with every append, drop and reader call executed statement by statement under the lock of its session, interleaved in any way with each other and with start(), stop(), restarts, the reading threads and everything else. Then there is an execution in which each such call is a single step and which ends in the same state: same log of observations, same outcomes of all calls, same order of the steps of the outside world; the memory of each session, when no writer is inside, and the readers are what that execution says. Nothing but the lock ever holds a call up. So what is proved of single-step calls (e.g. that a consumer of an unbounded buffer misses nothing) holds of the real ones. Conditions: calls on one reader do not overlap in time; the lengths that source_reader_info and the reading thread take without the lock are not taken in the middle of an append or a drop.", "quantifier": "all schedules of statements, any number of threads, sessions, readers and callers, all source behaviours", "why_tests_cant": "Every interleaving of the statements of all calls", "anchors": ["stream2py/stream_buffer.py: StreamBuffer, _SourceBuffer.append, _SourceBuffer.drop", "stream2py/buffer_reader.py: BufferReader", "stream2py/utility/reader_writer_lock.py: RWLock", "stream2py/utility/locked_sorted_deque.py: RWLockSortedDeque"]}
{"id": "C164", "title": "Calls that go statement by statement under the lock all return, and nothing is forgotten", "statement": "Run the stream buffer with every append, drop and reader call executed statement by statement under the lock of its session, for ever, with a scheduler that does not forget anybody (whoever could execute its next statement again and again does; the reading thread and the consumer in question are not forgotten between calls either, and the source returns or raises). Then every append and drop returns; every reader call returns provided appends and drops pause again and again, which they do when nobody calls drop and restarts find the earlier threads ended; after stop() or a failure the source is closed; with auto_drop=True the source is read for ever until closed; a for loop on an unbounded buffer is given everything stored; a consumer waiting with something unread is given something; and after a stop a for loop ends by itself. Conditions as in C163, and nobody calls range with only_new_items=True (which can deadlock, C30).", "quantifier": "all infinite executions under strong fairness of statements and weak fairness of the thread and consumer; any number of sessions, threads, readers", "why_tests_cant": "Eventual events in infinite schedules", "anchors": ["stream2py/stream_buffer.py: StreamBuffer, _SourceBuffer.append, _SourceBuffer.drop", "stream2py/buffer_reader.py: BufferReader.__next__, BufferReader.__iter__, BufferReader.read", "stream2py/utility/reader_writer_lock.py: RWLock", "stream2py/utility/locked_sorted_deque.py: RWLockSortedDeque"]}
{"id": "C165", "title": "A start() that is interrupted leaves a usable stream buffer, and what exactly", "statement": "Let start() be interrupted at any of its statements, any number of times (KeyboardInterrupt, most likely in the one-second sleep of the stop() it calls). Then consumers, readers and the source see nothing they could not see without interruptions, so every buffer still holds the newest items stored in it, in order. The lock is free. Interrupted before the earlier buffer was let go, mk_reader() answers as before the call; afterwards it raises StreamNotStarted, until the new buffer is made. is_running is False from the stopping of the earlier session on and True once the new stop event exists, even with no thread. An interruption after open() returned leaves the source open: nothing reads from it or closes it for that session. The next start() goes through; but next(stream_buffer) keeps reading from the earlier session if the interruption came in the sleep.", "quantifier": "all executions with any number of interruptions at any statement of start(), any threads, readers and callers", "why_tests_cant": "An interruption can come at every statement, in every state of the other threads", "anchors": ["stream2py/stream_buffer.py: StreamBuffer.start, StreamBuffer.stop, StreamBuffer._set_read_to_buffer_thread_and_source_buffer, StreamBuffer._open, StreamBuffer.is_running, StreamBuffer.mk_reader, StreamBuffer.__next__"]}
{"id": "C166", "title": "When a restart overtakes the earlier thread: what every execution keeps", "statement": "Nothing is assumed about restarts: start() may be called again while threads of earlier sessions are still reading, so that several threads read and store at the same time. Then still: what read() returned to a thread is, in order, what that thread stored, each once, followed by at most one item, which is in its hands, was refused for its key, or was lost because a start() in progress had no buffer yet (the thread then ends with AttributeError). A thread never stores into a session before its own, nor goes back to an earlier one. What a session holds, and what a consumer of it is handed and can still read, is put together from parts, in order and without repetition, of what threads of this and earlier sessions read, and nothing of later ones. Once a later start() has opened the source, an earlier session gets at most one more item from each thread.", "quantifier": "all executions, without any condition on restarts; any number of overlapping threads, sessions, readers", "why_tests_cant": "The overlap depends on where each thread is when start() is called again", "anchors": ["stream2py/stream_buffer.py: StreamBuffer.start, StreamBuffer._run, StreamBuffer._set_read_to_buffer_thread_and_source_buffer, StreamBuffer._open", "stream2py/buffer_reader.py: BufferReader.read"]}
{"id": "C167", "title": "The loop of the documentation, for ever: a bounded buffer that is emptied never blocks the stream", "statement": "maxlen at least 1, auto_drop=False, the data of the source have increasing keys, a consumer in a for loop (default arguments), never more is dropped than it has received. If the scheduler is fair to the consumer, it is given everything that has been stored, in order, sooner or later, or the session is stopped first. If moreover what it has received is dropped sooner or later, and the scheduler is fair to the thread, the source is read again and again, or the session is stopped: the thread does not wait for room for ever. For SimpleCounterString(start, stop): the loop is given s{start}, ..., s{stop-1}, exactly, although the buffer has room for fewer. If nobody drops, the source is read no more once the buffer is full.", "quantifier": "all infinite executions that are fair in this sense, all sources, bounds, bodies that drop by any amounts at any time", "why_tests_cant": "It is about infinite executions; a test sees finitely many steps of one", "anchors": ["stream2py/stream_buffer.py: StreamBuffer._run, StreamBuffer.drop, _SourceBuffer.drop, _SourceBuffer.append", "stream2py/buffer_reader.py: BufferReader.__iter__, BufferReader.__next__, BufferReader.read"]}
{"id": "C168", "title": "A reader moved to another session while its consumer is using it", "statement": "A reader is given to another session by attach_reader while a for loop over it, or a call of next, is in progress. Whatever the moment, and however often: all that the consumer is handed over time, out of all sessions, is in strictly increasing order of keys, never the same item twice, never from an earlier session again, and each item was stored in the session it was read from. From any moment on until the next attach_reader it gets the items of its session above its cursor, in order and without repetition, and all of them as long as the buffer retains them. Once attach_reader has returned, the loop or next ends only if the session moved to has stopped, not because the old one has; is_stopped is that of the new session. If the new session has stopped and nothing more is stored, the loop ends after a bounded number of its own statements and is never stuck.", "quantifier": "all configurations, schedules of the session thread, controllers and consumers, any number of sessions and readers, attach_reader at any moment, between any two accesses of the consumer to the reader", "why_tests_cant": "the loop looks up the buffer, reads it and looks up the stop event at three different moments; attach_reader, which changes both, can come between any two of them", "anchors": ["stream2py/stream_buffer.py: _SourceBuffer.attach_reader, StreamBuffer.attach_reader, mk_reader", "stream2py/buffer_reader.py: BufferReader.__iter__, __next__, read, is_stopped"]}
{"id": "C169", "title": "A loop ends, and next raises StopIteration, only when the session that the reader has been given has stopped", "statement": "A for loop over a reader never ends by itself, and next(reader) never raises StopIteration, while the session whose buffer the reader has is running. FALSE of the code: attach_reader assigns the buffer, then the stop event; a consumer of a stopped session that has found nothing to read and looks at is_stopped in between ends its loop, although the reader already has the buffer of a running session with items to read. True of every step made while no call of attach_reader on that reader is in progress.", "quantifier": "all configurations, schedules, sessions and readers, attach_reader at any moment", "why_tests_cant": "needs a context switch between two assignments of attach_reader", "anchors": ["stream2py/stream_buffer.py: _SourceBuffer.attach_reader", "stream2py/buffer_reader.py: BufferReader.__iter__, __next__, is_stopped"]}
{"id": "C170", "title": "Settings with which nothing can be delivered", "statement": "maxlen=0 is accepted, and so is a negative maxlen until start(). With maxlen=0 no buffer ever retains an item and no call on any reader, no for loop, next or blocking read ever gets one; source_reader_info is always None; with auto_drop=True every item read from the source is appended without error and lost; with auto_drop=False the source is never read. If the _SourceBuffer cannot be made (negative maxlen: deque raises ValueError in start(); or info or key of the source raise each time), no reader is ever made, nothing is read or stored, and the source, although each start() opens it, is never closed.", "quantifier": "all executions: any number of sessions, callers and readers, any schedule, any source", "why_tests_cant": "a finite test sees that nothing has been delivered yet, not that nothing can be", "anchors": ["stream2py/stream_buffer.py: StreamBuffer.__init__, _run, _start, _SourceBuffer.__init__", "stream2py/utility/sorted_deque.py: SortedDeque.__init__"]}
{"id": "C171", "title": "Items that change while they are in a session buffer: unread items keep their keys", "statement": "Readers hand out the objects of the buffer, not copies, and the buffer files each item under the key it had when it was stored. Whatever consumers, sources or others do to items, at any moment: as long as, whenever a reader reads, the items it has not read yet still have the key they were stored with, every append, drop, read, next and iteration step of that reader has the outcome it would have if no item ever changed (with each item under the key of storing); what the reader is handed is, in order, a part of what was stored, nothing twice.", "quantifier": "all histories of appends, drops, reads of any readers and changes of items; the reader in question only reads; == of an object with itself stays true", "why_tests_cant": "a finite test changes one item at one moment; every change at every moment counts", "anchors": ["stream2py/buffer_reader.py: BufferReader.read, next, __next__, last_item", "stream2py/stream_buffer.py: _SourceBuffer.append, drop", "stream2py/utility/sorted_deque.py: SortedDeque.append, find_gt, index, range_by_index"]}
{"id": "C172", "title": "However consumers change the items they are handed, every consumer gets each item once, in order", "statement": "What a consumer does to the items it was handed does not disturb the other consumers. (False: an unread item whose key another consumer has enlarged makes a reader skip items still in the buffer; one whose key was made smaller makes it get items again and again; and read(n) with n above 1 raises ValueError each time while the oldest unread item is not found under its present key.) Exactly: a read starts at the first note whose key of storing exceeds the key that the last item handed out had when it was handed out; with n above 1 its place is then looked up by the present key of that item.", "quantifier": "all histories of appends, drops, reads of any readers and changes of items", "why_tests_cant": "a finite test changes one item at one moment; every change at every moment counts", "anchors": ["stream2py/buffer_reader.py: BufferReader.read, next, __next__, last_item", "stream2py/utility/sorted_deque.py: SortedDeque.find_gt, index, range_by_index"]}
{"id": "C173", "title": "A sleep time that time.sleep rejects", "statement": "The constructor does not check sleep_time_on_read_none_s; time.sleep raises ValueError for a negative one or NaN and OverflowError for one that is too large. With such a sleep time every execution is as one in which, instead, the next read() of the source raised that exception (with a full buffer and auto_drop=False: as if auto_drop had been set for a moment and the next read() raised; if the session has been stopped meanwhile: no difference but the exception). So the first None the source returns is the last thing a reading thread gets from it; a thread that is to sleep sets the stop event and closes the source, and the stream is not running; what is retained is the newest end of what was stored, at most maxlen items, and a consumer is handed, in order, a part of what was stored.", "quantifier": "all executions of a stream buffer with any number of sessions, callers and readers, any exception of time.sleep, auto_drop assigned at any moment", "why_tests_cant": "a finite test sees one interleaving of start, stop, drop, next and the thread; the claim is about all", "anchors": ["stream2py/stream_buffer.py: StreamBuffer.__init__, _run, stop, start, drop, __next__"]}
{"id": "C174", "title": "A reader whose sleep time time.sleep rejects", "statement": "set_sleep_time_on_iter_none does not check its argument. If time.sleep raises for it (negative, NaN, too large, no number), every execution is, but for the exceptions observed, one in which the consumer instead gave up its loop or call at that sleep; so what a consumer was handed and can still read is, in order and each once, a part of what was accepted. Only the sleep time counts that the reader itself was given last; a reader whose own is accepted goes on as ever. With a rejected one read(blocking=True) never waits: after at most three steps of its own it has returned what the read that does not block gives, or raised the exception where that gives None while the stream runs. A for loop left to itself hands out everything that is unread, then ends, by itself if the stream has stopped, with the exception if it runs, within a number of its own steps bounded by the number of items.", "quantifier": "all histories of one session buffer, its consumers, drops and stop; the sleep time of any reader set to anything at any moment; the loop claim for readers with peek and strict_n False", "why_tests_cant": "a finite test sets one sleep time and sees one interleaving", "anchors": ["stream2py/buffer_reader.py: BufferReader.set_sleep_time_on_iter_none, __iter__, read, __next__"]}
{"id": "C175", "title": "Items that change while they are in a session buffer: every call of every reader", "statement": "Readers hand out the objects of the buffer, not copies, and the buffer files each item under the key it had when it was stored. If whenever a reader is called the items in the buffer have the keys they were stored with (they may have changed otherwise, or had other keys meanwhile, and items that have left the buffer may have changed in every way), then every append, drop, read, next, range, head, tail and assignment or deletion of last_item, on all readers together, has exactly the outcome it would have had if no item had ever changed, an assigned item counting with the key it has at the assignment; and the buffer and the last items of all readers are those.", "quantifier": "all histories of appends, drops, calls on any number of readers (in any order) and changes of items, all key functions, bounds and reader settings; == reflexive", "why_tests_cant": "a finite test changes a few items at a few moments", "anchors": ["stream2py/buffer_reader.py: BufferReader.read, range, head, tail, last_item", "stream2py/stream_buffer.py: _SourceBuffer", "stream2py/utility/sorted_deque.py"]}
{"id": "C176", "title": "Assigning read_size, peek, ignore_no_item_found or strict_n of a reader changes no answer", "statement": "The constructor keeps its arguments twice: as the public attributes read_size, peek, ignore_no_item_found and strict_n, and in a dict of its own from which read, range and next take their defaults. However often and whenever those attributes of any readers are assigned, every append, drop and reader call has exactly the outcome it would have without the assignments, by the settings given to the constructor; while the attributes themselves show what was assigned last. So a reader that shows read_size 3 goes on to read one item at a time.", "quantifier": "all histories of appends, drops, calls on any number of readers, assignments and looks at the attributes; all settings, key functions, bounds", "why_tests_cant": "a finite test assigns a few attributes and looks at a few calls after that", "anchors": ["stream2py/buffer_reader.py: BufferReader.__init__, read, range, __next__"]}
{"id": "C177", "title": "Another source is assigned to source_reader while the stream runs", "statement": "source_reader is a plain attribute that is looked up at every call on the source. Whatever sources are assigned to it, at whatever moments: for consumers and callers everything is as in an execution without assignments, with one source that answers what the several ones answer, so that what a consumer is given is, in order and each once, a part of what they returned to the thread of its session. The thread goes over to the new source at once: it ends at most the one read it had in progress on another. But open is not called on the new source until a start(), although it is read, and closed, by the session; and a source that is assigned no more and has no call in progress is never read or closed again: if it was open it stays open.", "quantifier": "all executions of one stream buffer, any number of sources and assignments at any moments; what consumers get: restarts find the earlier thread ended", "why_tests_cant": "a finite test assigns at one moment", "anchors": ["stream2py/stream_buffer.py: StreamBuffer.__init__ (source_reader), _run, _open"]}
