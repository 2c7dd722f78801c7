{"id": "C01", "title": "A sink sees an action begin at most once, and never ends it before it began", "statement": "Whatever sequence of begin/warn/success/failure/exception calls and with-block entries and exits an application performs on its actions, each sink's on_begin is called at most once per action, and when sinks do not raise and the logger is synchronous, no on_end for an action reaches a sink before that sink's on_begin for it.", "quantifier": "all histories of API calls on any number of actions and loggers, all sinks", "why_tests_cant": "the number of call orders is unbounded; tests only try a few straight-line ones", "anchors": ["lithoxyl/action.py:Action.begin", "lithoxyl/action.py:Action._end", "lithoxyl/action.py:Action.__enter__", "lithoxyl/logger.py:Logger.on_begin"]}
{"id": "C02", "title": "A with block publishes exactly one end event, at exit, with the right status", "statement": "For every body run under `with log.<level>(...) as act`, whatever status calls it makes in whatever order and whether or not it raises, sinks that do not raise receive exactly one on_end for the action; it is delivered at block exit and not before; its status is 'exception' if the body raised, otherwise the status of the last explicit status call, otherwise 'success'.", "quantifier": "all bodies (sequences of calls, nested blocks, raising or not), all non-raising sink sets", "why_tests_cant": "bodies are arbitrary programs; the claim is about every call order and nesting depth", "anchors": ["lithoxyl/action.py:Action.__exit__", "lithoxyl/action.py:Action._end", "lithoxyl/action.py:Action._exception"]}
{"id": "C03", "title": "An exception leaving a with block is always recorded as an ended action", "statement": "Whenever a with-block body raises, the action ends with status 'exception' and its end event is published to every on_end sink, whatever the on_exception sinks do.", "quantifier": "all bodies that raise, all sink behaviours including raising on_exception hooks", "why_tests_cant": "needs every combination of sink failures with every body outcome", "anchors": ["lithoxyl/action.py:Action.__exit__", "lithoxyl/action.py:Action._exception", "lithoxyl/sinks.py:DevDebugSink.on_exception"]}
{"id": "C04", "title": "A with block is transparent to the application's control flow", "statement": "A with block leaves the body's outcome unchanged: normal completion stays normal and an exception propagates as the same exception, except that reraise=False turns the body's exception into normal completion; an exception raised by lithoxyl while handling the body's exception never replaces it.", "quantifier": "all bodies, all reraise settings, all behaviours of sinks", "why_tests_cant": "ranges over every outcome of the body and every failure of every sink", "anchors": ["lithoxyl/action.py:Action.__exit__", "lithoxyl/logger.py:Logger.info"]}
{"id": "C05", "title": "Leaving a with block restores the enclosing active parent", "statement": "After a with block is left, normally or by exception, the logger's active parent is what it was before the block was entered, so a new action gets the same parent before and after the block.", "quantifier": "all nestings of with blocks on any number of loggers, all body outcomes, all sink behaviours", "why_tests_cant": "nesting depth and interleavings are unbounded", "anchors": ["lithoxyl/action.py:Action.__enter__", "lithoxyl/action.py:Action.__exit__", "lithoxyl/context.py:_consec_set_active_parent"]}
{"id": "C06", "title": "parent_depth is the number of ancestors, cut off at 500, and always terminates", "statement": "For every parent graph, including cyclic ones, act.parent_depth terminates and equals min(500, number of steps that can be taken along parent_action).", "quantifier": "all parent graphs, finite or cyclic", "why_tests_cant": "chains of every length and every cycle shape", "anchors": ["lithoxyl/action.py:Action.parent_depth"]}
{"id": "C07", "title": "status follows the life cycle", "statement": "act.status is 'begin' until the first status call, and from then on it is the status of the latest success/failure/exception call; begin, warn, comments, flushes and operations on other actions never change it.", "quantifier": "all histories of API calls", "why_tests_cant": "order and number of the calls are unbounded", "anchors": ["lithoxyl/action.py:Action.status", "lithoxyl/action.py:Action._end"]}
{"id": "C08", "title": "duration is zero until the end, and never negative under a non-decreasing clock", "statement": "act.duration is 0 for an action with no end event and for an action ended without ever having entered a with block; for an action ended inside one it is the time between its begin event and the status call that ended it, and it is never negative when time.time() is non-decreasing.", "quantifier": "all histories and all clock readings", "why_tests_cant": "quantifies over every clock and every history", "anchors": ["lithoxyl/action.py:Action.duration", "lithoxyl/action.py:Action._end"]}
{"id": "C09", "title": "The data map is last-writer-wins over all calls", "statement": "After any history, act[key] is the value most recently given to key by the constructor's keyword arguments, act[key]=v, or keyword arguments of begin/warn/success/failure/exception; the reraise and parent_action keywords of the creating call are never stored by it, and no operation on another action changes it.", "quantifier": "all histories of API calls", "why_tests_cant": "unbounded sequences of updates from many entry points", "anchors": ["lithoxyl/action.py:Action.begin", "lithoxyl/action.py:Action.__setitem__", "lithoxyl/logger.py:Logger.debug"]}
{"id": "C10", "title": "Ids are unique and increasing", "statement": "Every action and every event created in a process gets an id no other action or event has, and ids increase in creation order.", "quantifier": "all histories", "why_tests_cant": "uniqueness is over all pairs in an unbounded history", "anchors": ["lithoxyl/action.py:_ACT_ID_ITER", "lithoxyl/action.py:Action.__init__", "lithoxyl/action.py:BeginEvent"]}
{"id": "C11", "title": "GUIDs are unique within a process and sort like ids", "statement": "int2hexguid_seq maps different ids to different strings for the same process, and strings compare (as strings) in the same order as the ids.", "quantifier": "all pairs of ids, all seeds", "why_tests_cant": "two unbounded integers and a 96-bit random seed", "anchors": ["lithoxyl/utils.py:int2hexguid_seq", "lithoxyl/action.py:Action.guid"]}
{"id": "C12", "title": "At most one end event per action", "statement": "A sink's on_end is called at most once for an action (docs: 'Designed to be called once per Action').", "quantifier": "all histories of API calls", "why_tests_cant": "all call orders", "anchors": ["lithoxyl/action.py:Action._end", "docs/sinks.rst"]}
{"id": "C13", "title": "The sink registry has no duplicates and its hook lists follow it", "statement": "After any sequence of set_sinks/add_sink/clear_sinks, logger.sinks has no duplicates, keeps first-insertion order, and for each event kind the hooks called are exactly those of the listed sinks that define a callable hook for it, in that order.", "quantifier": "all sequences of registry operations and all sinks", "why_tests_cant": "unbounded operation sequences", "anchors": ["lithoxyl/logger.py:Logger.add_sink", "lithoxyl/logger.py:Logger.set_sinks", "lithoxyl/logger.py:Logger.clear_sinks"]}
{"id": "C14", "title": "Synchronous publication reaches every sink once, in registration order", "statement": "In synchronous mode, publishing an event calls the hook of each registered sink that has one exactly once, in registration order, before the publishing call returns, and nothing else, as long as no hook raises (hooks that raise are C15's subject).", "quantifier": "all sink sets, all events, all states", "why_tests_cant": "all sink sets and histories", "anchors": ["lithoxyl/logger.py:Logger.on_begin", "lithoxyl/logger.py:Logger.on_end", "lithoxyl/logger.py:Logger.on_warn", "lithoxyl/logger.py:Logger.comment"]}
{"id": "C15", "title": "A failing sink does not keep an event from the other sinks", "statement": "If one sink's hook raises, the other sinks still receive the event and the application is not disturbed (docs: 'Instrumentation must degrade gracefully').", "quantifier": "all sink sets and failure patterns", "why_tests_cant": "all failure patterns of all sinks", "anchors": ["lithoxyl/logger.py:Logger.on_end", "docs/faq.rst"]}
{"id": "C16", "title": "Asynchronous delivery is the publication sequence, each event once", "statement": "In asynchronous mode with no more than QUEUE_LIMIT events outstanding, what a sink has received plus what is queued is, at every moment, the published sequence, in order and without loss or duplication, and flush() empties the queue.", "quantifier": "all histories of publications and flushes with non-raising sinks", "why_tests_cant": "unbounded interleavings of publications and flushes", "anchors": ["lithoxyl/logger.py:Logger.flush", "lithoxyl/logger.py:Logger.event_queue"]}
{"id": "C17", "title": "The event queue never holds more than QUEUE_LIMIT events and drops the oldest", "statement": "Without flushes, after any number of publications the queue holds exactly the latest min(n, 10000) events in order.", "quantifier": "all publication sequences of every length", "why_tests_cant": "needs sequences longer than any test runs, at every length", "anchors": ["lithoxyl/logger.py:QUEUE_LIMIT", "lithoxyl/logger.py:Logger.on_end"]}
{"id": "C18", "title": "Switching a logger between modes keeps events in order", "statement": "Sinks see a logger's events in publication order even when set_async is called between publications.", "quantifier": "all histories mixing publications, flushes and set_async", "why_tests_cant": "all interleavings", "anchors": ["lithoxyl/logger.py:Logger.set_async", "lithoxyl/context.py:LithoxylContext.disable_async"]}
{"id": "C19", "title": "A failing flush loses at most the event being delivered and never repeats one", "statement": "If a hook raises during flush(), every event still in the queue is delivered by later flushes, in order; no hook receives the same event twice; only the event being delivered can miss hooks.", "quantifier": "all histories of publications and flushes, all hook failure patterns", "why_tests_cant": "failure point ranges over every event and every hook", "anchors": ["lithoxyl/logger.py:Logger.flush"]}
{"id": "C20", "title": "A context flush reaches every logger in registration order, whatever fails", "statement": "LithoxylContext.flush() flushes every registered logger, in the order they were added, each exactly once, and an Exception from one logger's sinks neither stops the others nor reaches the caller (note handlers that raise are C66's subject).", "quantifier": "all sets of loggers and failure patterns", "why_tests_cant": "all failure patterns over any number of loggers", "anchors": ["lithoxyl/context.py:LithoxylContext.flush", "lithoxyl/context.py:LithoxylContext.add_logger"]}
{"id": "C21", "title": "enable_async makes the registered loggers asynchronous", "statement": "After enable_async() (update_loggers defaulting to True) every logger registered with the context publishes asynchronously.", "quantifier": "all contexts and sets of loggers", "why_tests_cant": "all states", "anchors": ["lithoxyl/context.py:LithoxylContext.enable_async"]}
{"id": "C22", "title": "disable_async loses nothing", "statement": "After disable_async() with non-raising sinks and no concurrent publisher, every registered logger is synchronous, its queue is empty, and everything that was queued has been delivered in order.", "quantifier": "all contexts, loggers and queue contents", "why_tests_cant": "all states", "anchors": ["lithoxyl/context.py:LithoxylContext.disable_async"]}
{"id": "C23", "title": "Concurrent publishers and flushers preserve each logger's queue order", "statement": "With any number of threads publishing to and flushing one asynchronous logger under any interleaving, each sink receives events in the order they entered the queue, each at most once, and at every moment the events handed to the last sink, in flight and queued together are everything published, as long as no sink calls flush itself.", "quantifier": "all thread counts, all interleavings, all numbers of events (within the queue limit)", "why_tests_cant": "the number of interleavings is unbounded; tests see one schedule per run", "anchors": ["lithoxyl/logger.py:Logger.flush", "lithoxyl/logger.py:Logger.async_lock"]}
{"id": "C24", "title": "flush terminates and keeps order even when sinks use the logger", "statement": "flush() returns and delivers in order even if a sink publishes to or flushes the same logger from its hook.", "quantifier": "all sink behaviours", "why_tests_cant": "all re-entrant behaviours", "anchors": ["lithoxyl/logger.py:Logger.flush"]}
{"id": "C25", "title": "Preflush hooks all run, and cannot stop a flush", "statement": "Each flush() runs every preflush hook once, in order, before any delivery; an Exception in one is noted and neither stops the others nor the delivery (note handlers that raise are C66's subject).", "quantifier": "all hook lists and failure patterns", "why_tests_cant": "all failure patterns", "anchors": ["lithoxyl/logger.py:Logger.flush"]}
{"id": "C26", "title": "The actor's interval stays between its base and maximum, backs off and recovers", "statement": "Between the configured interval and max_interval, every failed task call doubles the wait up to max_interval and successes shrink it back; after any history the interval lies within the bounds, and eight consecutive successes return it to the base.", "quantifier": "all sequences of task outcomes and all interval settings", "why_tests_cant": "unbounded outcome sequences and real-valued settings", "anchors": ["lithoxyl/actors.py:IntervalThreadActor._run"]}
{"id": "C27", "title": "start() yields a running actor", "statement": "After start() returns without raising, the actor's thread keeps calling the task until stop() is called again.", "quantifier": "all histories of start/stop/join/fork and all thread schedules", "why_tests_cant": "all schedules of the actor thread against its callers", "anchors": ["lithoxyl/actors.py:IntervalThreadActor.start", "lithoxyl/actors.py:IntervalThreadActor.stop", "lithoxyl/actors.py:IntervalThreadActor.join"]}
{"id": "C28", "title": "stop() ends the loop after at most the current task call", "statement": "Once stop() has been called on a live actor and no further start/stop/join intervenes, the task is started at most one more time, whatever the schedule, and the actor can be restarted after join() reports it dead.", "quantifier": "all schedules and histories", "why_tests_cant": "all schedules", "anchors": ["lithoxyl/actors.py:IntervalThreadActor.stop", "lithoxyl/actors.py:IntervalThreadActor._run"]}
{"id": "C29", "title": "Task failures never kill the actor", "statement": "No Exception raised by the task ends the loop, and SystemExit/KeyboardInterrupt end it only for a non-daemon thread.", "quantifier": "all sequences of task outcomes", "why_tests_cant": "unbounded sequences", "anchors": ["lithoxyl/actors.py:IntervalThreadActor._run"]}
{"id": "C30", "title": "A user's SIGTERM handler is never displaced", "statement": "Any sequence of enable_async/disable_async (or install/uninstall without force) leaves a SIGTERM handler that lithoxyl did not install untouched, and leaves SIG_DFL in place after a final uninstall if it was there originally. Calls with update_sigterm=False never change the handler; with SIG_DFL in place, a call that asks for it does install lithoxyl's handler.", "quantifier": "all sequences of install/uninstall and of user handler changes", "why_tests_cant": "all sequences", "anchors": ["lithoxyl/context.py:install_sigterm_handler", "lithoxyl/context.py:uninstall_sigterm_handler"]}
{"id": "C31", "title": "Internal notes cannot fail on formatting", "statement": "context.note(name, message, *args) calls every note handler once, in order, with the %-formatted message, or the raw message when formatting fails; formatting never raises.", "quantifier": "all messages, arguments and handler lists", "why_tests_cant": "all format strings", "anchors": ["lithoxyl/context.py:LithoxylContext.note"]}
{"id": "C32", "title": "Levels are totally ordered by value and comparisons are consistent", "statement": "For all Level objects, <, <=, >, >= form a total order consistent with ==; == is an equivalence; equal levels have equal hashes.", "quantifier": "all levels (names and values)", "why_tests_cant": "all pairs and triples of levels", "anchors": ["lithoxyl/common.py:Level.__eq__", "lithoxyl/common.py:Level.__lt__", "lithoxyl/common.py:Level.__hash__"]}
{"id": "C33", "title": "get_level resolves every alias of a registered level and otherwise defaults", "statement": "After any sequence of register_level calls with distinct names and values, get_level returns the registered level for its lower-case name, upper-case name, value or object, and the default for anything else.", "quantifier": "all registration sequences, all keys", "why_tests_cant": "all keys", "anchors": ["lithoxyl/common.py:get_level", "lithoxyl/common.py:register_level"]}
{"id": "C34", "title": "get_next_level and get_prev_level move along the ordered level list and clamp", "statement": "For every registered level and every delta >= 0, get_next_level is the level delta places up, clamped to the highest, and get_prev_level the level delta places down, clamped to the lowest; both are monotone, and they never go the wrong way.", "quantifier": "all level tables, all keys, all deltas", "why_tests_cant": "all deltas and tables", "anchors": ["lithoxyl/common.py:get_next_level", "lithoxyl/common.py:get_prev_level"]}
{"id": "C35", "title": "The filter is a per-status threshold, monotone in level, with a verbose override", "statement": "SensibleFilter lets an event through iff its action's level is at or above the threshold configured for its event kind and status, or the verbose check holds; raising an action's level never turns a passing event into a blocked one; comments pass unless block_comments.", "quantifier": "all threshold settings, levels, statuses and data maps", "why_tests_cant": "product of all settings and events", "anchors": ["lithoxyl/sensible.py:SensibleFilter"]}
{"id": "C36", "title": "A SensibleSink emits exactly the selected events that every filter accepts", "statement": "For every event kind in `on` that is begin, warn, end or comment, a SensibleSink emits an entry exactly when all its filters accept the event, once, equal to the formatter's output; it ignores other kinds; unknown kinds are rejected at construction.", "quantifier": "all filter lists, event sequences and `on` settings", "why_tests_cant": "all filter lists and event sequences", "anchors": ["lithoxyl/sensible.py:SensibleSink"]}
{"id": "C37", "title": "Formatting never raises and keeps every literal segment", "statement": "SensibleMessageFormatter.format returns, for every event and argument list, the template's literal segments verbatim and in order, with each field replaced by its rendered (and quoted) value, or by its default when rendering it raises an Exception; one failing field never affects the others.", "quantifier": "all templates, events, getters and arguments, including ones that raise an Exception", "why_tests_cant": "all templates and all failure patterns", "anchors": ["lithoxyl/sensible.py:SensibleMessageFormatter.format"]}
{"id": "C38", "title": "Field lookup precedence is kwargs, then data map, then built-in, then None", "statement": "A field's value is the format() keyword argument if given, else the action's data_map entry, else the built-in getter's value, else None.", "quantifier": "all keys, data maps, getters", "why_tests_cant": "all combinations", "anchors": ["lithoxyl/sensible.py:GetterDict"]}
{"id": "C39", "title": "Quoted values can be read back and cannot break a line", "statement": "json.dumps quoting of a field is injective on text, can be decoded back, yields printable ASCII only, so no value can inject a line break or an unescaped quote; an entry made of quoted fields separated by literals that do not start with a quote determines the fields' values.", "quantifier": "all strings of every length and content", "why_tests_cant": "unbounded strings", "anchors": ["lithoxyl/sensible.py:DEFAULT_QUOTER", "lithoxyl/sensible.py:SensibleMessageFormatter._default_quoter"]}
{"id": "C40", "title": "An event's message is fixed when the event is created", "statement": "event.message does not change over an event's life (docs: events are practically immutable, values set once at creation).", "quantifier": "all histories of data map changes and message reads", "why_tests_cant": "all histories", "anchors": ["lithoxyl/action.py:Event.message"]}
{"id": "C41", "title": "The aggregate sink and emitter keep the latest `limit` items in order", "statement": "After any history, AggregateEmitter.get_entries() is the last `limit` emitted entries in order (all of them if limit is None), clear() empties it, and each of AggregateSink's deques holds the last `limit` events of its kind.", "quantifier": "all event sequences and limits", "why_tests_cant": "unbounded sequences and every limit", "anchors": ["lithoxyl/emitters.py:AggregateEmitter", "lithoxyl/sinks.py:AggregateSink"]}
{"id": "C42", "title": "A stream emitter writes each entry at most once, whole, in order, and swallows I/O errors", "statement": "For every pattern of write failures, the bytes that reach the stream's file are the encoded entries plus separator, in emission order, each at most once; an entry is missing only if its write failed, and a stale handle on a named stream is reopened and the entry retried once; no I/O error reaches the application.", "quantifier": "all entry sequences and all I/O failure patterns", "why_tests_cant": "all failure patterns", "anchors": ["lithoxyl/emitters.py:StreamEmitter.emit_entry", "lithoxyl/emitters.py:StreamEmitter.flush", "lithoxyl/emitters.py:FileEmitter.close"]}
{"id": "C43", "title": "A log file splits back into its entries", "statement": "If no entry contains the separator, splitting the written bytes at the separator gives back exactly the entries, in order.", "quantifier": "all entry sequences", "why_tests_cant": "unbounded sequences", "anchors": ["lithoxyl/emitters.py:StreamEmitter.emit_entry"]}
{"id": "C44", "title": "Syslog priority is defined for every built-in event and grows with level and badness", "statement": "For each built-in level and each event an action can publish, a syslog priority is found, it is at least as urgent for a higher level and for a worse outcome, and entries of every kind of event can be emitted.", "quantifier": "all levels and event kinds", "why_tests_cant": "finite table, plus all custom levels and comment events", "anchors": ["lithoxyl/_syslog_emitter.py:SyslogEmitter"]}
{"id": "C45", "title": "Moment accumulator equals the textbook moments", "statement": "After adding any sequence of numbers, count, mean, variance and the third and fourth central sums are exactly those of the sequence (over exact arithmetic), independent of order; skewness and kurtosis are the textbook ratios; uncomputable values are 0.", "quantifier": "all sequences of numbers", "why_tests_cant": "unbounded sequences; algebraic identity", "anchors": ["lithoxyl/moment.py:MomentAccumulator"]}
{"id": "C46", "title": "Moment accumulator tracks min and max", "statement": "After any non-empty sequence, the tracked minimum and maximum are the sequence's.", "quantifier": "all sequences of numbers", "why_tests_cant": "unbounded sequences", "anchors": ["lithoxyl/moment.py:MomentAccumulator.add"]}
{"id": "C47", "title": "MaxAccumulator keeps the `count` largest values", "statement": "After any sequence, max_list is sorted, has at most count elements, all of them added values, and is the count largest values added.", "quantifier": "all sequences of numbers and counts", "why_tests_cant": "unbounded sequences", "anchors": ["lithoxyl/accumulators.py:MaxAccumulator.add"]}
{"id": "C48", "title": "MinAccumulator keeps the `count` smallest values", "statement": "After any sequence, min_list is sorted, has at most count elements, all of them added values, and is the count smallest values added.", "quantifier": "all sequences of numbers and counts", "why_tests_cant": "unbounded sequences", "anchors": ["lithoxyl/accumulators.py:MinAccumulator.add"]}
{"id": "C49", "title": "HistogramCounter partitions the line and counts every value once", "statement": "For any bounds, the ranges are contiguous, cover (-inf, inf) and do not overlap; after any sequence of adds the count of each range is the number of added values v with lo <= v < hi, the counts sum to the number of adds, and add never raises.", "quantifier": "all bounds and value sequences", "why_tests_cant": "unbounded sequences, all bounds", "anchors": ["lithoxyl/accumulators.py:HistogramCounter"]}
{"id": "C50", "title": "Uncapped quantiles interpolate order statistics", "statement": "For a ReservoirAccumulator without cap, count, min and max are exact; every quantile lies between min and max, is monotone in q, does not depend on insertion order, and equals the linear interpolation of the sorted data at q*(n-1); an empty accumulator or q outside (0,1) raises.", "quantifier": "all data sequences, all q", "why_tests_cant": "unbounded data and real-valued q", "anchors": ["lithoxyl/quantile.py:ReservoirAccumulator"]}
{"id": "C51", "title": "A capped reservoir holds `cap` added values and reports true count, min and max", "statement": "With a cap, whatever random choices are made, the reservoir holds min(n, cap) values, all of which were added, and count, min and max describe all values added.", "quantifier": "all data sequences, caps and random choices", "why_tests_cant": "all random outcomes", "anchors": ["lithoxyl/quantile.py:ReservoirAccumulator.add"]}
{"id": "C52", "title": "P2 estimates stay ordered, inside the data range, with exact extremes", "statement": "For any quantile points and any data, the P2 estimator never divides by zero, its marker positions stay strictly increasing from 1 to the number of observations, its estimates are non-decreasing in q, and its 0.0 and 1.0 estimates are the exact minimum and maximum.", "quantifier": "all quantile points and data sequences", "why_tests_cant": "unbounded data; invariant of a numeric loop", "anchors": ["lithoxyl/p_squared.py:P2Estimator.add", "lithoxyl/p_squared.py:P2Estimator.__init__"]}
{"id": "C53", "title": "P2Accumulator reports true count, min and max, and the same quantiles are available throughout", "statement": "After any sequence, count, min and max of a P2Accumulator are those of the whole sequence, and the quantile points that can be queried do not depend on how much data has been added.", "quantifier": "all data sequences and quantile points", "why_tests_cant": "unbounded sequences", "anchors": ["lithoxyl/quantile.py:P2Accumulator"]}
{"id": "C54", "title": "Quantile points are normalised", "statement": "P2Estimator's quantile-point processing accepts exactly the point sets that have a point strictly between 0 and 1 and none outside [0,1], and returns the distinct interior points in increasing order; it is idempotent.", "quantifier": "all point lists", "why_tests_cant": "all lists", "anchors": ["lithoxyl/p_squared.py:P2Estimator._process_q_points"]}
{"id": "C55", "title": "EWMA rates are weighted averages that converge", "statement": "EWMA rates stay within the range of the window rates seen, get_rates within the interval does not change them after the first read, no added value is lost or counted twice, and get_rates never fails.", "quantifier": "all sequences of add/get_rates and clock readings, all periods", "why_tests_cant": "all clocks and sequences", "anchors": ["lithoxyl/ewma.py:EWMAAccumulator"]}
{"id": "C56", "title": "Rate windows count the events in the window", "statement": "RateAccumulator.get_rate(start, end) is the number of tracked events in [start, end] divided by the window length; it never raises and is never negative for start <= end.", "quantifier": "all timestamp sequences and windows", "why_tests_cant": "all windows and sequences", "anchors": ["lithoxyl/sinks.py:RateAccumulator.get_rate"]}
{"id": "C57", "title": "RateSink totals are the events received", "statement": "After any events, get_total_counts()['__all__'] is the number of end events received, and each logger/name/status cell and its '__all__' subtotals count exactly the events with those labels.", "quantifier": "all event sequences over all loggers, names and statuses", "why_tests_cant": "unbounded sequences and label sets", "anchors": ["lithoxyl/sinks.py:RateSink.on_end", "lithoxyl/sinks.py:RateSink.get_total_counts"]}
{"id": "C58", "title": "CounterSink totals are the events received", "statement": "After any events, to_dict()[logger]['__all__'] is the number of end events from that logger, whatever the threshold counter forgot.", "quantifier": "all event sequences", "why_tests_cant": "unbounded sequences", "anchors": ["lithoxyl/sinks.py:CounterSink"]}
{"id": "C59", "title": "QuantileSink routes each event to exactly one accumulator", "statement": "After any events, to_dict() has exactly the (logger name, action name) pairs seen, and each accumulator was given exactly the durations of its events, in order.", "quantifier": "all event sequences", "why_tests_cant": "unbounded sequences", "anchors": ["lithoxyl/sinks.py:QuantileSink.on_end", "lithoxyl/sinks.py:QuantileSink.to_dict"]}
{"id": "C60", "title": "EWMASink aggregates are sums of their parts", "statement": "get_values() '__all__' entries are, for each period, the sum of the accumulators' rates below them.", "quantifier": "all event sequences", "why_tests_cant": "unbounded sequences", "anchors": ["lithoxyl/sinks.py:EWMASink.get_values"]}
{"id": "C61", "title": "A wrapped function behaves like the original and logs one action per call", "statement": "As long as sinks do not raise, a function decorated with logger.wrap returns and raises exactly what the original does for every call (unless reraise=False, when an exception becomes a None result), and each call produces exactly one begin and one end event of an action of its own, with its own data map.", "quantifier": "all functions, calls and outcomes", "why_tests_cant": "all functions and outcomes", "anchors": ["lithoxyl/logger.py:Logger.wrap"]}
{"id": "C62", "title": "unwrap_all undoes wrap_all", "statement": "For every target without previously wrapped functions, wrap_all followed by unwrap_all leaves every attribute as it was; wrap_all wraps exactly the non-skipped functions reachable within depth and returns their names.", "quantifier": "all targets (nested classes, shared and cyclic references), skip rules, depths", "why_tests_cant": "all attribute graphs", "anchors": ["lithoxyl/utils.py:wrap_all", "lithoxyl/utils.py:unwrap_all", "lithoxyl/utils.py:unwrap"]}
{"id": "C63", "title": "Concurrent with blocks on one logger do not corrupt each other's parents", "statement": "When several threads use with blocks on the same logger, once all blocks are left no finished action remains the logger's active parent.", "quantifier": "all interleavings of with blocks in any number of threads", "why_tests_cant": "all interleavings", "anchors": ["lithoxyl/context.py:_CONSEC_ACTIVE_ACT_MAP", "lithoxyl/action.py:Action.__exit__"]}
{"id": "C64", "title": "Comments are complete, parented and never end an action", "statement": "Each logger.comment delivers exactly one comment event and no begin, end or warn event, to every sink with on_comment (as long as no sink raises), and does not affect any existing action or the active parent. The event's action has a begin and an end event and as parent the given parent_action, else the action active on the logger.", "quantifier": "all histories", "why_tests_cant": "all histories", "anchors": ["lithoxyl/logger.py:Logger.comment"]}
{"id": "C65", "title": "Warnings are all recorded, in order", "statement": "act.warn_events lists exactly the warnings issued on the action, in order, and each was published exactly once at the time it was issued, whether or not the action is inside a with block.", "quantifier": "all histories", "why_tests_cant": "all histories", "anchors": ["lithoxyl/action.py:Action.warn"]}
{"id": "C66", "title": "A failing note handler does not disturb flush, the actor or exit", "statement": "If a registered internal-note handler raises, flush still delivers to the remaining sinks, the actor thread goes on and actions still end.", "quantifier": "all handlers and failure patterns", "why_tests_cant": "the failing handler can be met at any point of any history", "anchors": ["lithoxyl/context.py:LithoxylContext.note", "lithoxyl/logger.py:Logger.flush", "lithoxyl/actors.py:IntervalThreadActor._run"]}
{"id": "C67", "title": "Events without a template format to the empty string", "statement": "A SensibleFormatter uses an event's own template when given, else the base template, else renders the event as the empty string.", "quantifier": "all template combinations", "why_tests_cant": "all combinations of given, absent and None templates", "anchors": ["lithoxyl/sensible.py:SensibleFormatter"]}
{"id": "C68", "title": "Reading an event's message never raises", "statement": "event.message can be read for every event, whatever text, action name, arguments and data map it was made with.", "quantifier": "all message texts, action names, arguments and data maps", "why_tests_cant": "the text is arbitrary and parsed only when the message is read", "anchors": ["lithoxyl/action.py:Event.message", "lithoxyl/sensible.py:SensibleMessageFormatter.__init__"]}
{"id": "C69", "title": "Doubled braces in a message appear as single literal braces", "statement": "An event whose message is a text with every brace doubled has exactly that text as its message, whatever the data map.", "quantifier": "all texts and data maps", "why_tests_cant": "all texts", "anchors": ["lithoxyl/action.py:Event.message", "lithoxyl/sensible.py:SensibleMessageFormatter"]}
{"id": "C70", "title": "Default messages start with the action's name", "statement": "An action begun or ended without a message gets one that is its name followed by what happened, and by its data map if it has data.", "quantifier": "all names and data maps", "why_tests_cant": "all names", "anchors": ["lithoxyl/action.py:Action.begin", "lithoxyl/action.py:Action.success", "lithoxyl/action.py:Action.failure"]}
{"id": "C71", "title": "RateSink rates are sums of their parts", "statement": "After any events, get_rates() '__all__' entries are the sums of the rates of the accumulators below them, each cell is the rate of exactly the events with its labels, and over the sink's lifetime the overall rate is the number of events received divided by that time.", "quantifier": "all sequences of end events from any number of loggers, names and statuses, all windows", "why_tests_cant": "ranges over all event histories, label combinations and windows", "anchors": ["lithoxyl/sinks.py:RateSink.get_rates", "lithoxyl/sinks.py:RateSink.on_end", "lithoxyl/sinks.py:RateAccumulator.get_rate"]}
{"id": "C72", "title": "A CounterSink never loses a frequent key", "statement": "After any N end events of a logger, of which n have the key k, CounterSink.to_dict()[logger][k] is at most n and short of n by at most N / int(1/threshold), and a key with n > N / int(1/threshold) is never missing (for loggers that do not share a name and keys other than the two special ones).", "quantifier": "all sequences of end events, all thresholds", "why_tests_cant": "unbounded event sequences; the error bound depends on the whole history of forgotten keys", "anchors": ["lithoxyl/sinks.py:CounterSink.on_end", "lithoxyl/sinks.py:CounterSink.to_dict"]}
{"id": "C73", "title": "Histograms cover all values", "statement": "get_histogram() of a quantile accumulator that has seen at least one value, for q points strictly between 0 and 1, gives one cell more than there are points. The cells lie next to each other, cover the quantiles from 0 to 1 and run from the minimum to the maximum, and their ratios add up to 1. For points in increasing order each cell's count is non-negative and within one of its share (ratio times number of values), and the counts add up to the number of values up to one per cell. A cell counts its share rounded down, and one more exactly when, with at least as many values as points (the extremes among them), it is the first or the last, or, with fewer, its values are not all the same.", "quantifier": "every sequence of add calls, sorts and reads on a reservoir without cap, every list of q points in (0, 1), every way values are rounded when stored", "why_tests_cant": "Cell counts are truncated products corrected by a heuristic that depends on counts, values and points; a test sees a few of the combinations.", "anchors": ["lithoxyl/quantile.py: QuantileAccumulatorBase.get_histogram, get_quantiles, HistogramCell"]}
{"id": "C74", "title": "Value ranges of histogram cells run upwards", "statement": "In the cells of get_histogram(), for q points in increasing order, no value range ends below where it starts.", "quantifier": "every non-empty sequence of added values, every increasing list of q points in (0, 1)", "why_tests_cant": "It depends on how the stored single-precision values compare with the exact minimum and maximum.", "anchors": ["lithoxyl/quantile.py: QuantileAccumulatorBase.get_histogram, ReservoirAccumulator.add"]}
{"id": "C75", "title": "Built-in fields have values whenever what they describe has happened", "statement": "Whenever a published event is rendered, at once or after any later calls: fields about the event, its action, logger, level, data and duration have a value; the begin_* and iso_begin* fields have one for every begin, end and comment event; the end_* and iso_end* fields for every end and comment event; the exc_* fields for every end event with status exception. Ids, names and status are those of the event itself, and the begin fields are those of the one begin event published for the action.", "quantifier": "every history of API calls, every published event, every later history before rendering, every built-in field but warn_char", "why_tests_cant": "Each field reads live attributes of the action when it is rendered; which are set depends on the order of all calls and, in asynchronous mode, on when the flush happens.", "anchors": ["lithoxyl/sensible.py: BASIC_FIELDS, ISO8601_FIELDS, DELTA_FIELDS, PARENT_FIELDS, SensibleField", "lithoxyl/action.py: Event.__getattr__"]}
{"id": "C76", "title": "An event renders the same whenever it is rendered", "statement": "The value of a built-in field for a published event does not depend on when it is rendered, at once by a synchronous logger or later by an asynchronous one.", "quantifier": "every history, every published event, every continuation of the history, every built-in field", "why_tests_cant": "It compares renderings of one event at two arbitrary points of arbitrary histories.", "anchors": ["lithoxyl/sensible.py: BASIC_FIELDS, PARENT_FIELDS", "lithoxyl/action.py: EndEvent.status_char, Action.duration"]}
{"id": "C77", "title": "Built-in fields show what their names say", "statement": "Whenever an entry is rendered: the fields for action, level and logger show the arguments of the call that made the action. The begin fields show the action's begin event; the end fields the end it has, and the duration fields the time between the two, 0 while there is no end. The exception fields show the exception last recorded on the action. The status character of an end is the first letter of its status, in upper case exactly if the action's with block was entered; begins, warnings and comments have their own. The depth fields show the number of ancestors, up to 500; the data fields the data the action has. warn_char has a value for warnings; the *_message_raw fields show the message template as given, without substitution.", "quantifier": "every published event in every reachable state", "why_tests_cant": "A test sees single events and cannot tell a field that never works from one that depends on the state.", "anchors": ["lithoxyl/sensible.py: BASIC_FIELDS and their getters", "lithoxyl/action.py: Action, Event"]}
{"id": "C78", "title": "Threads publishing on one synchronous logger", "statement": "When several threads publish on one logger in synchronous mode and its sinks stay fixed, a sink with a hook for the kind of event is handed each publication of a thread at most once whatever hooks raise; exactly once, by the time the thread has left the logger, if no hook raised in that thread; and in the order of publication if, in addition, the thread does not publish from inside a sink.", "quantifier": "every set of sinks, every number of threads and every interleaving of their steps, including sinks that call the logger again", "why_tests_cant": "the interleavings of publishing threads are unbounded in number and length; a test sees a few of them", "anchors": ["lithoxyl/logger.py:Logger.on_begin", "lithoxyl/logger.py:Logger.on_warn", "lithoxyl/logger.py:Logger.on_end", "lithoxyl/logger.py:Logger.on_exception", "lithoxyl/logger.py:Logger.comment"]}
{"id": "C79", "title": "Sinks registered when an event is published get it even if sinks change meanwhile", "statement": "Whatever other threads, or the sinks themselves, do with add_sink and set_sinks while an event is being delivered in synchronous mode, every sink whose hook was registered at the moment of publication is handed the event by the time the publishing thread has left the logger, if no hook raised in that thread.", "quantifier": "every interleaving of publishing, adding and replacing sinks by any number of threads", "why_tests_cant": "which list object a loop iterates over, and when another thread swaps it, depends on the schedule", "anchors": ["lithoxyl/logger.py:Logger.set_sinks", "lithoxyl/logger.py:Logger.add_sink", "lithoxyl/logger.py:Logger.on_end"]}
{"id": "C80", "title": "Changing sinks under way loses and doubles nothing", "statement": "A sink that is among the logger's sinks before and after a change of the sinks gets every event once, also when threads publish or change the sinks at the same time.", "quantifier": "every interleaving of publishing, adding and replacing sinks by any number of threads", "why_tests_cant": "the harmful interleavings are rare and depend on the schedule", "anchors": ["lithoxyl/logger.py:Logger.set_sinks", "lithoxyl/logger.py:Logger.add_sink"]}
{"id": "C81", "title": "An action keeps what it was created with", "statement": "From its creation on, whatever is called and whatever sinks do, an action keeps its logger, level and name, and its parent: the action given as parent_action, else the one active on its logger at creation. Whether leaving its block swallows an exception is decided by the reraise it was created with.", "quantifier": "all actions, all histories before and after the creation, all behaviours of sinks", "why_tests_cant": "all histories and all sink behaviours", "anchors": ["lithoxyl/action.py:Action.__init__", "lithoxyl/action.py:Action.__exit__", "lithoxyl/logger.py:Logger.action"]}
{"id": "C82", "title": "Sinks are told nothing that did not happen", "statement": "Whenever a sink's on_<kind> hook is called, the sink has that hook, the event has that kind and a status that goes with it, its action exists and belongs to the event's logger, and the event was published by that action.", "quantifier": "all histories, all sinks, all behaviours of sinks", "why_tests_cant": "every call in every history, in both modes and across switches, additions and failures", "anchors": ["lithoxyl/logger.py:Logger.flush", "lithoxyl/logger.py:Logger.on_end", "lithoxyl/logger.py:Logger.on_exception", "lithoxyl/action.py:Action._end"]}
{"id": "C83", "title": "on_exception is called at once, first, and only for exceptions", "statement": "Recording an exception (action.exception, or a with block left by one) calls the on_exception hooks of the logger's sinks immediately, even on an asynchronous logger, in sink order, with one new event that is added to the action's exceptions, before any other hook; no other call ever calls an on_exception hook.", "quantifier": "all reachable states, all calls, all sinks", "why_tests_cant": "all histories and modes", "anchors": ["lithoxyl/logger.py:Logger.on_exception", "lithoxyl/action.py:Action._exception"]}
{"id": "C84", "title": "Nothing stays queued when the process ends", "statement": "If async mode was ever enabled, disable_async runs exactly once among the exit handlers, whether the process exits or is sent a SIGTERM that lithoxyl's handler takes; all exit handlers of the application run too, and at the end no registered logger has an event queued: exactly what was queued and what the exit handlers published has been handed to its sinks, each event once, in order (as long as sinks do not raise and exit handlers do not unregister or reconfigure the logger or overfill its queue).", "quantifier": "all histories of enabling, disabling, logging and registering exit handlers; exit and SIGTERM; all loggers", "why_tests_cant": "all histories, all exit points", "anchors": ["lithoxyl/context.py:LithoxylContext.enable_async", "lithoxyl/context.py:signal_sysexit", "lithoxyl/context.py:atexit_reissue_sigterm"]}
{"id": "C85", "title": "SIGTERM ends the process as it would without lithoxyl", "statement": "A process sent a SIGTERM while lithoxyl's handler is installed terminates with the same status as without a handler: killed by the signal.", "quantifier": "all histories ending in a SIGTERM", "why_tests_cant": "all histories", "anchors": ["lithoxyl/context.py:signal_sysexit", "lithoxyl/context.py:atexit_reissue_sigterm"]}
{"id": "C86", "title": "The text of a message is its template, part by part", "statement": "For a message template made of literal text, automatic and numbered positional fields and named fields, the text of the message is the concatenation of what each part shows: literal text verbatim (with doubled braces read as one), a positional field the formatted argument it counts to, a named field the formatted data map entry of that name if there is one and otherwise the value of the built-in field of that name, None for a name that is neither; a field that cannot be shown is written as in the template. Reading the message again gives the same text as the first time, whatever happened to the data map since. A formatter given extra fields knows them beside the built-in ones; of several of one name the last counts, also before a built-in one.", "quantifier": "every template of such parts, every argument list, data map, table of known fields and formatting function that raises no BaseException", "why_tests_cant": "The parser, automatic numbering, default texts and lookups interact for every template; tests try some.", "anchors": ["lithoxyl/action.py: Event.message", "lithoxyl/sensible.py: SensibleMessageFormatter.__init__, SensibleMessageFormatter.format, GetterDict"]}
{"id": "C87", "title": "A formatter that was made never raises", "statement": "Making a formatter succeeds exactly for the valid templates, and a formatter that was made returns a string for every event, positional and keyword argument: getters, quoters and value formatting may raise.", "quantifier": "every template, table of known fields, defaulter, quoter, arguments, keyword arguments and data map", "why_tests_cant": "One template and one failing getter at a time can be tested; the claim is about all combinations of failures.", "anchors": ["lithoxyl/sensible.py: SensibleMessageFormatter.__init__, SensibleMessageFormatter.format"]}
{"id": "C88", "title": "Entries cannot be broken up by what is logged", "statement": "If the template has no line break (or other unwanted character), quoting gives none, and what the getters of the fields shown unquoted return gives none, then no entry has one, whatever the arguments, keyword arguments and data maps contain. With the default quoter an entry of a printable template is printable ASCII. Every built-in field that shows application text is quoted, and so is every field that is not built in.", "quantifier": "every template, unwanted-character predicate, quoter and event content", "why_tests_cant": "Log injection is about the content nobody thought of.", "anchors": ["lithoxyl/sensible.py: SensibleMessageFormatter.format, _default_quoter, GetterDict.__missing__, SensibleField"]}
{"id": "C89", "title": "Entries can be read back", "statement": "An entry is the concatenation of what its parts show. For a template of fields separated by spaces, every field can be read back from the line knowing only which fields of the template are quoted: a quoted field gives exactly the text of its value, whatever that contains, and is told from a field that could not be shown; an unquoted field gives what it shows, as long as that contains no space.", "quantifier": "every list of fields, every event content, arguments, keyword arguments and failures", "why_tests_cant": "Reversibility is a statement about all pairs of events that give the same line.", "anchors": ["lithoxyl/sensible.py: SensibleMessageFormatter, _default_quoter, reversability requirements"]}
{"id": "C90", "title": "Log files keep every entry", "statement": "Any number of file emitters appending to one file, made, used and closed in any order, leave what was in the file before followed by every entry given to an open emitter, whole, once and in the order of the calls. An emitter that overwrites, used alone, leaves exactly its own entries. Making an emitter that appends changes nothing that is in the file.", "quantifier": "every sequence of making, using and closing emitters, every entry and previous content", "why_tests_cant": "Loss of entries depends on how the operations of several emitters interleave.", "anchors": ["lithoxyl/emitters.py: FileEmitter, StreamEmitter.emit_entry"]}
{"id": "C91", "title": "Written entries decode", "statement": "What an emitter with the default encoding settings writes is valid UTF-8, decodes to the entry that was given, and entries written one after the other decode to their concatenation; ASCII text is written as it is.", "quantifier": "every text", "why_tests_cant": "All code points and sequences of them matter, including lone surrogates.", "anchors": ["lithoxyl/emitters.py: StreamEmitter.__init__, emit_entry (encoding, errors='backslashreplace')"]}
{"id": "C92", "title": "A log file can be read back", "statement": "Take events shown by a formatter whose fields are separated by spaces, written by a file emitter in UTF-8 and appended to an empty file: splitting the file at line breaks, decoding each line and reading its fields gives back the fields of every event, in order, as long as the unquoted fields show no space and no line break.", "quantifier": "every list of events, every template of the kind, every content of the quoted fields", "why_tests_cant": "An end-to-end statement over all contents: quotes, backslashes, line breaks and all code points.", "anchors": ["lithoxyl/sensible.py: SensibleFormatter, SensibleMessageFormatter", "lithoxyl/emitters.py: FileEmitter, StreamEmitter"]}
{"id": "C93", "title": "Encoding settings are checked when an emitter is made", "statement": "An emitter can be made exactly if its encoding and error handler exist; which of the two errors is raised tells which is missing; an emitter that was made never fails later because either is unknown; with an error handler that finds replacements it can encode every text. check_encoding_settings without exceptions returns a true value exactly for valid settings.", "quantifier": "every table of encodings and error handlers, every pair of settings, every text", "why_tests_cant": "The error handler is only looked up when some text needs it, so that a wrong setting may go unnoticed for any finite number of entries.", "anchors": ["lithoxyl/utils.py: check_encoding_settings", "lithoxyl/emitters.py: StreamEmitter.__init__, emit_entry"]}
{"id": "C94", "title": "A logger's module is that of the code that made it", "statement": "A logger made without naming a module gets the module of the code that made it, through any number of constructors of subclasses; with module_offset, that of the code so many calls further out. Without a name it is named after that module.", "quantifier": "every call stack, every offset", "why_tests_cant": "Call stacks of every depth and every mix of subclasses matter.", "anchors": ["lithoxyl/logger.py: get_frame_excluding_subtypes, Logger.__init__"]}
{"id": "C95", "title": "UTC timestamps are right and sort", "statement": "The iso_begin and iso_end fields show the calendar date of the time; as texts they compare exactly like the times, so that different times are shown differently; all have the same length and contain no blanks, quotes or line breaks.", "quantifier": "every pair of times from 1970 to 9999", "why_tests_cant": "All dates, leap years and digit boundaries matter.", "anchors": ["lithoxyl/sensible.py: timestamp2iso8601, ISO8601_FIELDS"]}
{"id": "C96", "title": "Local timestamps tell the time", "statement": "Two times that a local timestamp field with time zone shows alike are the same time (to the precision shown).", "quantifier": "every zone with or without summer time, every pair of times", "why_tests_cant": "Fails only for times around the end of summer time.", "anchors": ["lithoxyl/sensible.py: timestamp2iso8601, timestamp2iso8601_noms, ISO8601_FIELDS"]}
{"id": "C97", "title": "Durations are shown right", "statement": "What the duration and import-delta fields show is within half a unit of the last digit of the value; duration_auto can be read back with its unit, of two durations the longer one is never shown as the shorter one, and it takes nine columns for durations from 0 to below 1000 seconds.", "quantifier": "every duration", "why_tests_cant": "Rounding and the choice of unit at every boundary.", "anchors": ["lithoxyl/sensible.py: duration_auto, BASIC_FIELDS, DELTA_FIELDS"]}
{"id": "C98", "title": "The debug sink does not disturb the application", "statement": "With DevDebugSinks registered, a with statement raises exactly what its body raised (unless the action was made with reraise=False) and ends normally if the body does; and the action is recorded as ended by an exception as it would be without them.", "quantifier": "every program, every exception, any debug sinks on any loggers", "why_tests_cant": "Quantifies over all programs and all exceptions.", "anchors": ["lithoxyl/sinks.py: DevDebugSink", "lithoxyl/action.py: Action.__exit__, Action._exception"]}
{"id": "C99", "title": "Publishing while modes change loses nothing and doubles nothing", "statement": "However threads publish, flush, switch modes with set_async, enable_async and disable_async, and make and remove loggers: sinks are handed only events published on their logger, each at most once. As long as no more than QUEUE_LIMIT events are published on a logger, once all calls have returned every event has been handed over or is queued for the next flush, exactly once. An event published on a logger that is synchronous and stays so has been handed over when the publishing call returns.", "quantifier": "every number of threads, every schedule of their atomic steps, every logger; sinks that do not raise or call lithoxyl", "why_tests_cant": "Lost and doubled events depend on where one thread is between testing async_mode and appending when another switches modes; tests see few of those schedules.", "anchors": ["lithoxyl/logger.py: Logger.on_begin, on_warn, on_end, comment, flush, set_async, __init__", "lithoxyl/context.py: LithoxylContext.enable_async, disable_async, flush"]}
{"id": "C100", "title": "disable_async leaves nothing behind, also among other threads", "statement": "When disable_async() has returned, and nobody asked for asynchronous mode since it was called, no registered logger is asynchronous and none has events queued, even if other threads publish, flush and make loggers at the same time; loggers made afterwards without an async argument are synchronous.", "quantifier": "every number of threads, every schedule, every state in which disable_async is called", "why_tests_cant": "The outcome depends on what other threads do between any two steps of the call.", "anchors": ["lithoxyl/context.py: LithoxylContext.disable_async", "lithoxyl/logger.py: Logger.__init__, set_async, flush"]}
{"id": "C101", "title": "Queued events outlive the application's references", "statement": "An event published on an asynchronous logger registered with a context has been delivered, once and in order, when the next flush of the context returns, whether or not the application still refers to the logger, and whenever the garbage collector runs.", "quantifier": "every history of making, using and dropping loggers, every moment of a garbage collection", "why_tests_cant": "A garbage collection can happen between any two steps and is not under a test's control.", "anchors": ["lithoxyl/context.py: LithoxylContext.loggers, flush, add_logger, remove_logger", "lithoxyl/logger.py: Logger.event_queue"]}
{"id": "C102", "title": "Threads can share an action", "statement": "When several threads call begin, warn, success and failure on one action outside with blocks, exactly one begin event is published, before any end event; each status call publishes one end event, its own; every warning is published once.", "quantifier": "every number of threads, every sequence of calls, every schedule of their atomic steps", "why_tests_cant": "The races are between single attribute accesses; tests cannot enumerate the schedules.", "anchors": ["lithoxyl/action.py: Action.begin, Action.warn, Action.success, Action.failure, Action._end"]}
{"id": "C103", "title": "Moment statistics fit together", "statement": "For values added to a MomentAccumulator, the mean lies between min and max; the variance is zero exactly if all values are equal, and bounded by the spread of the values; unless all values are equal, kurtosis is at least one more than the square of the skewness. Measured in another unit (a*x+b), the count is the same, the mean is converted, the variance multiplied by a squared, kurtosis unchanged, and skewness unchanged up to the sign of a.", "quantifier": "every non-empty list of values of any ordered field, every a and b (a not zero for the shape)", "why_tests_cant": "The relations hold between statistics of arbitrary long inputs, updated one value at a time; tests see a few data sets.", "anchors": ["lithoxyl/moment.py: MomentAccumulator.add, MomentAccumulator.mean, MomentAccumulator.variance, MomentAccumulator.skewness, MomentAccumulator.kurtosis"]}
{"id": "C104", "title": "A flush that returns has delivered what was queued", "statement": "When Logger.flush returns, each sink of the logger has been handed every event the logger published before that call, of the kinds the sink takes, in order, even if other threads were flushing and did part of the delivering. A thread that calls flush while no other thread is flushing returns after finitely many of its own steps, leaving the queue empty.", "quantifier": "every number of threads, every schedule of publishing and flushing within the queue limit and without exceptions (those are C105); for the return, every history, also with exceptions", "why_tests_cant": "Whether the events were delivered by this flush or by another one that runs at the same time depends on the schedule.", "anchors": ["lithoxyl/logger.py: Logger.flush, Logger.async_publish", "lithoxyl/context.py: LithoxylContext.flush"]}
{"id": "C105", "title": "Exceptions during flush lose at most one event each", "statement": "If flush is left with an exception, raised by a sink, a preflush hook or a signal handler at any point, the lock is free afterwards, each such exception costs a sink at most one event, and the next flush delivers what was still queued, in order.", "quantifier": "every schedule of publishing and flushing by any number of threads within the queue limit, with exceptions at any points of it", "why_tests_cant": "The point at which a signal arrives cannot be enumerated by tests.", "anchors": ["lithoxyl/logger.py: Logger.flush", "lithoxyl/context.py: LithoxylContext._exit_on_sigterm, LithoxylContext.flush"]}
{"id": "C106", "title": "With blocks interrupted at any point", "statement": "If an exception comes at any point of a program of nested with blocks (as KeyboardInterrupt or the SystemExit of the SIGTERM handler may), the active action afterwards is what it was before, and every action that has begun has also ended; about no action more than one begin and one end are published.", "quantifier": "every program of nested and sequential with blocks, status calls, raises and handlers; every point at which the exception comes", "why_tests_cant": "The exception may come between any two steps, in the middle of __enter__ and __exit__.", "anchors": ["lithoxyl/action.py: Action.__enter__, Action.__exit__, Action._exception", "lithoxyl/context.py: LithoxylContext._exit_on_sigterm"]}
{"id": "C107", "title": "Forked processes deliver each event once", "statement": "In a program that forks with an asynchronous logger, no event is handed to a sink more often than it was published, counting all processes, and in every process flush returns when no other thread of the process is flushing.", "quantifier": "every number of processes and threads, every schedule of publishing, flushing, exceptions and forks at any point", "why_tests_cant": "A fork copies the queue and the lock in whatever state they are; tests see few of the moments.", "anchors": ["lithoxyl/logger.py: Logger.flush, Logger.__init__", "lithoxyl/actors.py: IntervalThreadActor.start"]}
{"id": "C108", "title": "Hooks that keep threads apart give every thread its own parents", "statement": "With get_active_parent and set_active_parent hooks that keep the active action per thread and logger, in every interleaving of threads that use with blocks, nested in each thread, on any loggers: every action has as parent the one given for it, or else the action of the innermost block around it on its logger in its own thread; a thread's actions have the parents they would have if it ran alone; and when a thread has left its blocks none of its actions is active. (The default hooks do not do this for threads.)", "quantifier": "every number of threads and loggers, every program of nested blocks in each, every interleaving", "why_tests_cant": "A test runs a few interleavings of a few programs.", "anchors": ["lithoxyl/context.py: LithoxylContext.get_active_parent, set_active_parent, _consec_get_active_parent, _consec_set_active_parent", "lithoxyl/action.py: Action.__init__, __enter__, __exit__"]}
{"id": "C109", "title": "Making loggers does not disturb flushing and mode switches", "statement": "flush(), enable_async() and disable_async() of a context do not raise and do their work completely, whatever loggers other threads make, remove or let go of meanwhile.", "quantifier": "every number of threads and loggers, every schedule", "why_tests_cant": "Only a registration between two particular steps of another thread's copy of the table does harm.", "anchors": ["lithoxyl/context.py: LithoxylContext.flush, enable_async, disable_async, add_logger, remove_logger"]}
{"id": "C110", "title": "One global context", "statement": "Unless set_context is called, all calls of get_context return the same context and all loggers made without context= belong to it, so that get_context().flush() delivers what is queued on any of them. A logger stays with the context it was made with when the global one is replaced, and get_context never returns None unless set_context(None) is called.", "quantifier": "every number of threads, every interleaving of get_context, set_context, Logger(...), publishing and flushing", "why_tests_cant": "The test runs in one thread, after other tests have already made the context; the race is in the first calls.", "anchors": ["lithoxyl/context.py:get_context", "lithoxyl/context.py:set_context", "lithoxyl/logger.py:Logger.__init__"]}
{"id": "C111", "title": "A rate sink counts the events of all threads", "statement": "A RateSink counts every event it is given, whatever threads deliver them, and get_total_counts can be called at any time: it returns, for each logger, action name and status an event was given for, the number of these events.", "quantifier": "every number of threads, every interleaving of the single steps of on_end and get_total_counts, any loggers, names and statuses", "why_tests_cant": "The tests deliver from one thread; the loss needs two threads between one read and one write, or a new key while another thread iterates.", "anchors": ["lithoxyl/sinks.py:RateSink.on_end", "lithoxyl/sinks.py:RateSink.get_total_counts", "lithoxyl/sinks.py:RateAccumulator.add"]}
{"id": "C112", "title": "Asynchronous mode changes when events arrive, not which", "statement": "Run the same calls twice, with any loggers made asynchronous or synchronous and with mode changes of single loggers and enable_async anywhere. Both runs publish the same events with the same ids, times and texts in the same order, every call returns or raises the same, and the actions end up the same. Once nothing is queued for a logger, each of its sinks has received the same events from it in the same order, provided no hook raises, its queue was never overfilled and it was not made synchronous while events were queued.", "quantifier": "every pair of histories that differ in modes only, every logger and sink", "why_tests_cant": "The two runs interleave deliveries differently; every history and every placement of mode changes would have to be tried.", "anchors": ["lithoxyl/logger.py:Logger.set_async", "lithoxyl/logger.py:Logger.flush", "lithoxyl/logger.py:Logger.on_end", "lithoxyl/context.py:LithoxylContext.enable_async", "lithoxyl/action.py:Action"]}
{"id": "C113", "title": "The log of a program is its transcript", "statement": "A sequential program on one logger that has no active action, made of with blocks on log.action(level, name, **data), optionally with reraise=False, around act.warn, log.comment, act[key] = value, act.success / act.failure, raise statements and try/except statements, in any nesting and length: when sinks and clocks do not raise, the events published on the logger are, one by one, what reading the program says. Each block gives a begin event and an end event, in the order of the source, nested actions have the enclosing block's action as parent, comments and warnings stand where they are made; the end event says exception if the body ends with one, else what success or failure said last, else success, with the default message telling whether the action has data. The program ends with the exception its text says, blocks with reraise=False swallowing theirs, and leaves no active action. On a new logger, synchronous or asynchronous, a sink with all hooks has received exactly this after a flush, if it is not longer than the queue.", "quantifier": "every such program (any nesting, any length, any exceptions), every reachable state with the logger and no active action on it, every environment whose sinks, handlers and clocks do not raise, both modes", "why_tests_cant": "the programs are trees of unbounded depth and length: a test runs one program; whether parents, end states and messages are right after any combination of nesting, swallowing and catching takes an induction over programs", "anchors": ["lithoxyl/action.py: Action.__enter__, Action.__exit__, Action._end, Action.warn, Action.success, Action.failure, Action.exception", "lithoxyl/logger.py: Logger.action, Logger.comment, Logger.flush, Logger._enqueue_*"]}
{"id": "C114", "title": "A quantile accumulator keeps the values of all threads", "statement": "A ReservoirAccumulator (the default of QuantileSink) that several threads add to and read quantiles from, without cap, has every value that was added, counts it once, knows the smallest and the largest, and what is read from it is the interpolated quantile of the values added by then; reading does not raise IndexError once there are values.", "quantifier": "all numbers of threads, all sequences of add and of quantile reads by them, all interleavings of the single attribute reads and writes, appends and sorts these consist of", "why_tests_cant": "The interleavings that lose values are a handful of bytecodes wide, a test of threads meets them by luck and cannot tell their absence.", "anchors": ["lithoxyl/quantile.py:ReservoirAccumulator.add", "lithoxyl/quantile.py:ReservoirAccumulator._sort", "lithoxyl/quantile.py:ReservoirAccumulator._get_quantile", "lithoxyl/quantile.py:BaseQuantileAccumulator.add", "lithoxyl/sinks.py:QuantileSink"]}
{"id": "C115", "title": "The log file of a program tells what happened", "statement": "Run a program made of with blocks, warnings, comments, status calls, raising and catching on a new logger whose SensibleSink writes to a new UTF-8 file with the template '{status_str} {action_name} {event_message}'. After the program and a flush, splitting the file into lines, decoding them and reading their quoted fields gives back the program's transcript: one line per event, in order, with the status, the name of the action and the message.", "quantifier": "all such programs up to the queue limit of events, whatever characters names and messages have, synchronous and asynchronous loggers, any moments between publication and flush at which events are rendered, any application data", "why_tests_cant": "It joins control flow, queueing, delivery, field lookup, quoting, encoding and file writing; a test fixes one program and one text.", "anchors": ["lithoxyl/action.py:Action", "lithoxyl/logger.py:Logger.flush", "lithoxyl/sensible.py:SensibleSink", "lithoxyl/sensible.py:SensibleFormatter", "lithoxyl/sensible.py:GetterDict", "lithoxyl/emitters.py:FileEmitter"]}
{"id": "C116", "title": "An EWMA accumulator accounts for what all threads add", "statement": "For an EWMAAccumulator that several threads add to and read rates from: whenever no call is under way, everything that was added has gone into the rate of each period exactly once, or is still to be counted; and rates of values that are not negative are never negative.", "quantifier": "all numbers of threads, all schedules of their steps and of the clock, all values, all periods and intervals", "why_tests_cant": "races between `+=`, the update loop and the reset need particular interleavings that tests do not produce; the claim is about all of them", "anchors": ["lithoxyl/ewma.py:EWMAAccumulator.add", "lithoxyl/ewma.py:EWMAAccumulator._update", "lithoxyl/ewma.py:EWMAAccumulator.get_rates", "lithoxyl/sinks.py:EWMASink.on_end"]}
{"id": "C117", "title": "A P2 accumulator keeps the values of all threads", "statement": "Whatever threads add values to one P2Accumulator and read quantiles from it, in whatever interleaving: no call raises because of the others, and once all calls are over quantiles are computed from all the values that were added, each once.", "quantifier": "all numbers of quantile points, threads, values and interleavings of the steps of add and of reading", "why_tests_cant": "the loss needs a thread switch between two particular steps of the change from the temporary accumulator to the estimator", "anchors": ["lithoxyl/quantile.py:P2Accumulator.add", "lithoxyl/quantile.py:P2Accumulator._get_quantile", "lithoxyl/sinks.py:QuantileSink"]}
{"id": "C118", "title": "Elapsed time counts from the call that began the action", "statement": "get_elapsed_time() returns 0 until a call begins the action; from then on, whatever else is called, including further begins, status calls and leaving the with block, it returns the time from that first call to now. It changes nothing, never goes down or below zero while the clock does not go back, and is never less than the action's duration.", "quantifier": "every history of calls on any actions and loggers after the action was made, every sink behaviour and every clock", "why_tests_cant": "The value depends on which of all calls in the whole history was first to begin the action, implicitly or not; tests try a few histories.", "anchors": ["lithoxyl/action.py:Action.get_elapsed_time", "lithoxyl/action.py:Action.begin", "lithoxyl/action.py:Action._end"]}
{"id": "C119", "title": "A stream emitter that could be made writes its entries", "statement": "StreamEmitter(stream, ...) either refuses its arguments with an error that names the reason, or returns an emitter whose stream receives every entry, encoded as asked for and followed by the separator; streams that take bytes are accepted.", "quantifier": "every stream object (what it is, has as mode and encoding, and takes), every encoding, error handler and separator, replaced standard streams, every sequence of entries", "why_tests_cant": "The streams and settings an application may pass are unlimited, and a stream wrongly accepted shows only as missing output.", "anchors": ["lithoxyl/emitters.py:StreamEmitter.__init__", "lithoxyl/emitters.py:_get_sys_stream", "lithoxyl/emitters.py:StreamEmitter.emit_entry"]}
{"id": "C120", "title": "Entries show every built-in field in its own notation", "statement": "Rendering a published event with a template of text and built-in fields gives the text, and for each field exactly what it tells, in the notation declared for it: ids, levels, depth and process id in decimal, durations with three digits after the point, time stamps with fourteen significant digits, ISO 8601 times, the exception's type and message, and so on; free text (names, messages, module, exception message and traceback) in JSON quotes, all else unquoted. A field with nothing to tell yet shows its own name in braces. No value of a built-in field is refused by its own format spec.", "quantifier": "every history, every published event, every state it may be rendered in, every template made of text and built-in fields under names the action has no data for", "why_tests_cant": "The specs and the types of values meet only when an event is rendered; a mismatch is swallowed and shows up as a placeholder in some entry of some event.", "anchors": ["lithoxyl/sensible.py: BASIC_FIELDS, ISO8601_FIELDS, DELTA_FIELDS, PARENT_FIELDS, SensibleMessageFormatter.format, SensibleField"]}
{"id": "C121", "title": "A getter that fails costs its event only", "statement": "When the getter of a statistics sink raises for some events, the tables of the sink afterwards are those of the other events: RateSink totals and CounterSink totals count the events whose getter returned, EWMASink accumulators add up what the getters returned, and QuantileSink.to_dict() and repr(), with either kind of accumulator, return the counts and medians of what the getters returned.", "quantifier": "every sequence of end events, with any loggers, names and statuses, and any choice of the events whose getter raises", "why_tests_cant": "a test has one failing getter at one place; the order of failures and the labels they fall on decide which accumulators are left empty, and all combinations matter", "anchors": ["lithoxyl/sinks.py: RateSink.on_end, RateSink.get_total_counts, CounterSink.on_end, CounterSink.to_dict, QuantileSink.on_end, QuantileSink.to_dict, QuantileSink.__repr__", "lithoxyl/quantile.py: ReservoirAccumulator._get_quantile"]}
{"id": "C122", "title": "Events speak for their actions", "statement": "Asking an event for an attribute always comes to an end: its own attributes (action, etime, event_id, message, raw_message, fargs, status, status_char, exc_info) are its own, every other attribute of its action is the action's, and any other name is an AttributeError. This also holds for copies of the event.", "quantifier": "every kind of event, attribute name, attributes added to the action by the application, stack depth, and before and after the message was read", "why_tests_cant": "attribute names are unbounded, and whether a lookup comes to an end depends on what the half-made object has, which tests on finished events do not reach", "anchors": ["lithoxyl/action.py: Event.__getattr__, Event.message, BeginEvent, ExceptionEvent, EndEvent, WarningEvent, CommentEvent, Action"]}
{"id": "C123", "title": "An actor's statistics tell how often and how long", "statement": "get_stats() of an actor gives, after any number of runs, the number of calls of the task made so far, the time all calls that have ended took, and the time the latest run began.", "quantifier": "every sequence of runs, each with any number of task calls of any outcome and duration, also with a call under way", "why_tests_cant": "the numbers accumulate over runs and over every outcome of the task; a test sees a few rounds that return", "anchors": ["lithoxyl/actors.py: IntervalThreadActor._run, get_stats"]}
{"id": "C124", "title": "Messages may mention messages", "statement": "A message whose template mentions messages ({begin_message}, {end_message}, {event_message}) says its template with each mentioned message in its place; what it says depends on the templates and values alone, not on the order messages are read in nor on how deep the call stack is.", "quantifier": "every set of events and templates, every order of readings, every amount of stack", "why_tests_cant": "how deep the mentions go and how much stack is left are unbounded; a test reads a message or two from a shallow stack", "anchors": ["lithoxyl/action.py: Event.message", "lithoxyl/sensible.py: SensibleFormatter.format, BASIC_FIELDS"]}
{"id": "C125", "title": "Normalised timestamps are the distances to the oldest one kept", "statement": "get_norm_times() of a rate accumulator has one entry for each of the newest sample_size timestamps, in the order added: its rounded distance to the oldest of them. For timestamps in order the entries begin with 0 and are in order, and they do not depend on when the series began.", "quantifier": "every sequence of timestamps and every sample size, also none", "why_tests_cant": "the sample is a window that moves over an unbounded series", "anchors": ["lithoxyl/sinks.py: RateAccumulator.add, RateAccumulator.get_norm_times"]}
{"id": "C126", "title": "wrap_all only adds logging, under the names and levels asked for", "statement": "wrap_all changes only attributes that are callable, named and not skipped; each gets a wrapper that logs under a dotted name that ends in the attribute's name and is in the list returned, with the level level_map has for the attribute or else the level argument; and every attribute still calls what it called before.", "quantifier": "every target (nested classes, inheritance, shared and cyclic references), skip rule, level map, depth; also calls that raise", "why_tests_cant": "all attribute graphs; a test looks at a few attributes of one target", "anchors": ["lithoxyl/utils.py:wrap_all", "lithoxyl/logger.py:Logger.wrap"]}
{"id": "C127", "title": "Without a target wrap_all and unwrap_all work on the calling module", "statement": "wrap_all(logger) and unwrap_all() do to the module they are called from what they do to a target given; with a number n as target, to the module n frames up.", "quantifier": "every calling stack, set of modules and target argument", "why_tests_cant": "the callers are not known; a test calls from one place", "anchors": ["lithoxyl/utils.py:wrap_all", "lithoxyl/utils.py:unwrap_all"]}
{"id": "C128", "title": "The default message of an exception tells what was raised and where", "statement": "An exception event that was given no message reads '<name> raised exception: <type>(<message>) from <function> on line <line> of file <path>', with the errno if there is one and the data map if there is data, whatever the texts.", "quantifier": "every action name, exception type, message, errno, place and data map", "why_tests_cant": "exception messages come from anywhere, and the text made is itself used as a template; a test uses a plain message", "anchors": ["lithoxyl/action.py:Action._exception", "lithoxyl/action.py:Action.exception"]}
{"id": "C129", "title": "The debug sink acts on the exceptions selected", "statement": "DevDebugSink(reraise, post_mortem) opens the debugger for exactly the exceptions post_mortem selects and raises again exactly those reraise selects, where False and None select none, True all Exceptions, and a type or iterable of types the instances of those types; it raises nothing else.", "quantifier": "every class hierarchy, pair of options and exception", "why_tests_cant": "class hierarchies and selections are unbounded; a test tries one option with one exception", "anchors": ["lithoxyl/sinks.py:DevDebugSink"]}
{"id": "C130", "title": "Moments in floating point", "statement": "In double arithmetic, rounding after every operation and as long as nothing overflows, a MomentAccumulator's count, min and max are exact, its mean lies between the smallest and the largest value added, its variance is never negative, and of equal values the mean is that value and the variance 0.", "quantifier": "every rounding of binary floating point (any precision), every sequence of floats", "why_tests_cant": "rounding errors depend on all values and their order; tests compare a few sequences up to a tolerance", "anchors": ["lithoxyl/moment.py:MomentAccumulator.add", "lithoxyl/moment.py:MomentAccumulator.variance"]}
{"id": "C131", "title": "P2 estimates in floating point", "statement": "In double arithmetic and as long as nothing overflows, the P2 estimator never divides by zero, its estimates do not decrease with the point asked for, and its first and last estimates are exactly the smallest and the largest value observed.", "quantifier": "every rounding, list of points, list of initial values long enough and sequence of further values", "why_tests_cant": "marker adjustments depend on the whole history; rounding could reorder markers after any of them", "anchors": ["lithoxyl/p_squared.py:P2Estimator", "lithoxyl/p_squared.py:P2Marker"]}
{"id": "C132", "title": "Reservoir quantiles in floating point", "statement": "In double arithmetic a quantile of the values kept exists for every q in (0, 1) and lies between the smallest and the largest of them.", "quantifier": "every rounding, sequence of floats and q", "why_tests_cant": "interpolation rounds at every step; whether it leaves the interval depends on the bits of the values and of q", "anchors": ["lithoxyl/quantile.py:ReservoirAccumulator._get_quantile"]}
{"id": "C133", "title": "Moving averages in floating point", "statement": "In double arithmetic, with a clock that does not go back and positive periods, each rate of an EWMAAccumulator lies between the smallest and the largest rate of the windows its reads closed; rates of non-negative values are never negative.", "quantifier": "every rounding, exponential function with values in [0, 1], set of periods and sequence of adds and reads", "why_tests_cant": "rounding errors of unboundedly many updates could add up; tests see a few updates and compare with a tolerance", "anchors": ["lithoxyl/ewma.py:EWMAAccumulator._update", "lithoxyl/ewma.py:EWMAAccumulator.get_rates"]}
{"id": "C134", "title": "The floating point mean is accurate", "statement": "In double arithmetic a MomentAccumulator's mean differs from the exact mean of the values by at most (n+1)/2 times a few units in the last place of the largest of them.", "quantifier": "every sequence of at most 2^53 doubles", "why_tests_cant": "error bounds quantify over all sequences; a test compares one sequence with a tolerance", "anchors": ["lithoxyl/moment.py:MomentAccumulator.add"]}
{"id": "C135", "title": "Reading statistics does not change them", "statement": "Reading quantiles, rates or the repr of an accumulator at any moments does not change what it reports after the same values later.", "quantifier": "every sequence of values and reads, every kind of accumulator", "why_tests_cant": "reads can be interleaved with values in unboundedly many ways; tests read at the end", "anchors": ["lithoxyl/quantile.py:ReservoirAccumulator._sort", "lithoxyl/quantile.py:P2Accumulator._get_quantile", "lithoxyl/ewma.py:EWMAAccumulator.get_rates", "lithoxyl/ewma.py:EWMAAccumulator.__repr__"]}
{"id": "C136", "title": "P2 estimates are those of the published algorithm", "statement": "After any observations the estimates of a P2Estimator are those of the P-square algorithm of the paper its module names, extended to any number of quantile points: markers move by at most one towards their ideal positions, along the parabola through their neighbours or, if that leaves the interval, along the line.", "quantifier": "every set of points and every sequence of at least as many observations as there are markers", "why_tests_cant": "the estimates depend on the whole history; tests compare a few with loose tolerances, which an estimator with a wrong formula also meets", "anchors": ["lithoxyl/p_squared.py:P2Estimator.add", "lithoxyl/p_squared.py:P2Estimator.get_quantiles"]}
{"id": "C137", "title": "Statistics in other units", "statement": "Values given in another unit (a*x+b, a > 0) give the same statistics in that unit: quantiles, median, trimean, minimum and maximum are converted, the interquartile range multiplied, the count and histogram counts unchanged, with the same random draws and as far as stored values are not rounded. With a < 0 the quantile for q is the converted quantile for 1-q (no limit on stored values).", "quantifier": "every a, b, sequence of values and reads, set of points, and random draws", "why_tests_cant": "an absolute constant or a wrong formula anywhere would break it for some unit only; tests use one unit", "anchors": ["lithoxyl/quantile.py:ReservoirAccumulator", "lithoxyl/quantile.py:P2Accumulator", "lithoxyl/p_squared.py:P2Estimator", "lithoxyl/accumulators.py:HistogramCounter"]}
{"id": "C138", "title": "Columns in templates hold what their fields tell, and line up", "statement": "A built-in field may be given a column in a template: a width, a side (left, right, middle), a fill character, zeros, a number of digits after the point; or be told only how much to show: the first characters of text, or the digits after the point. The entry then has, in that place, exactly what the field tells, placed in the column as asked for: as wide as the column, or as the text if that is longer, never cut off unless the column says after how many characters. Free text is quoted together with its filling. A field with nothing to tell, or asked for in a notation it does not have (text as a number, a time as a whole number), shows itself as written, and the rest of the entry is as ever. As long as everything fits, what follows starts at the same place in every entry.", "quantifier": "every history, every published event, every state it may be rendered in, every template of text and built-in fields with or without columns, every width, fill character and number of digits (names the action has no data for; times with a number of digits)", "why_tests_cant": "The spec of a column overrides the one a field is declared with, and meets values of all types and lengths only when events are rendered; failures are swallowed.", "anchors": ["lithoxyl/sensible.py: SensibleMessageFormatter.__init__, SensibleMessageFormatter.format, BASIC_FIELDS"]}
{"id": "C139", "title": "A QuantileSink with the P2 estimator can be shown at any time", "statement": "to_dict() and repr() of a QuantileSink that uses the P2 estimator return, whatever points it tracks and whatever events it saw, with an entry for exactly the pairs of logger name and action name seen, each from the values of that pair alone.", "quantifier": "all sets of tracked points strictly between 0 and 1, all histories of end events of any loggers and actions with any values, interleaved with any number of earlier to_dict and repr calls", "why_tests_cant": "Whether it raises depends on the points and on how many events the busiest pair has had; tests use the default points or few events.", "anchors": ["lithoxyl/sinks.py:QuantileSink.to_dict", "lithoxyl/sinks.py:QuantileSink.__repr__", "lithoxyl/quantile.py:P2Accumulator", "lithoxyl/p_squared.py:P2Estimator._get_quantile"]}
{"id": "C140", "title": "The totals of statistics sinks are the numbers of blocks that ended", "statement": "After a program of with blocks on one logger, synchronous or asynchronous, and a flush: a RateSink's total counts, a CounterSink's total and a QuantileSink's counts for that logger are the numbers of blocks that ended, per name and per status, as the program's transcript tells, with no entry for names and statuses that did not occur. (For a transcript that fits the queue, a logger no other shares its name with, and labels other than '__all__' and '__missing__'.)", "quantifier": "all scripts of nested with blocks, warnings, comments, exceptions raised and caught, explicit ends; all reachable states with a fresh logger; all clocks, getters that return, sample sizes, thresholds and quantile points in (0, 1)", "why_tests_cant": "It composes the control flow of arbitrary programs, the queue and the tables of three sinks; tests check tables after a handful of events.", "anchors": ["lithoxyl/sinks.py:RateSink.get_total_counts", "lithoxyl/sinks.py:CounterSink.to_dict", "lithoxyl/sinks.py:QuantileSink.to_dict", "lithoxyl/logger.py:Logger.on_end", "lithoxyl/action.py:Action.__exit__"]}
{"id": "C141", "title": "wrap_all with wrapping disabled changes nothing", "statement": "After wrap_all(..., extras={'enable_wrap': False}) every attribute of the target, of the classes in it and of all other objects reads as it did before.", "quantifier": "all targets (modules and classes with any attributes, nesting, sharing and inheritance), depths, skip rules, labels and levels, and whether or not wrap_all raises", "why_tests_cant": "ranges over all shapes of modules and class hierarchies", "anchors": ["lithoxyl/utils.py:wrap_all", "lithoxyl/logger.py:Logger.wrap"]}
{"id": "C142", "title": "The actor's interval in floating point", "statement": "With the doubles the code computes with, whatever the settings (an interval that is not negative and a maximum not below it) and however the task calls end, the interval stays between the base and the maximum, and eight successes in a row bring it back to the base.", "quantifier": "all settings that are doubles, all roundings with the properties of IEEE 754, all sequences of task outcomes", "why_tests_cant": "ranges over all doubles and all histories of the task", "anchors": ["lithoxyl/actors.py:IntervalThreadActor._run", "lithoxyl/actors.py:IntervalThreadActor.__init__"]}
{"id": "C143", "title": "Showing sinks and loggers", "statement": "The repr of an AggregateSink, AggregateEmitter, RateAccumulator, RateSink, EWMASink or Logger returns, whatever has been logged: the aggregates show how many events of each kind or entries they hold, an EWMASink for each period the sum of the rates of all accumulators that have one, the rate sinks the number of all events received and, to four places, that number per second since their creation, and a logger its sinks, in order, or its plain repr if one of them cannot be shown.", "quantifier": "all histories of events, limits, sample sizes, clock readings, and lists of sinks whatever their reprs do", "why_tests_cant": "ranges over all histories and clock readings, and over arbitrary failing sinks", "anchors": ["lithoxyl/sinks.py:AggregateSink.__repr__", "lithoxyl/sinks.py:RateAccumulator.__repr__", "lithoxyl/sinks.py:RateSink.__repr__", "lithoxyl/sinks.py:EWMASink.__repr__", "lithoxyl/emitters.py:AggregateEmitter.__repr__", "lithoxyl/logger.py:Logger.__repr__"]}
{"id": "C144", "title": "A QuantileSink that could be made can be used", "statement": "QuantileSink raises TypeError for a getter that cannot be called and for unknown keywords; a sink that could be made has accumulators of the class and with the points asked for (the default ones if there are none), takes every event, and to_dict() returns.", "quantifier": "all arguments, all histories of events", "why_tests_cant": "ranges over all options and all histories", "anchors": ["lithoxyl/sinks.py:QuantileSink.__init__", "lithoxyl/sinks.py:QuantileSink.on_end", "lithoxyl/sinks.py:QuantileSink.to_dict"]}
{"id": "C145", "title": "Threads can share a stream emitter", "statement": "However many threads emit, flush and close through one stream emitter, and however their steps interleave: entries get into the file whole, in the order of the writes, each at most once and those of a thread in the order it emitted them; when emit_entry returns its entry is in the file if flushing works; if no write fails and nobody closes the emitter every entry is written. The same holds when the stream goes stale and is reopened.", "quantifier": "all numbers of threads, all interleavings, all answers of the operating system", "why_tests_cant": "unbounded schedules; the failing interleaving needs three threads and two reopenings at the right moments", "anchors": ["lithoxyl/emitters.py:StreamEmitter.emit_entry", "lithoxyl/emitters.py:StreamEmitter.flush", "lithoxyl/emitters.py:FileEmitter.close"]}
{"id": "C146", "title": "Contexts are independent of one another", "statement": "An application may make several contexts; each has its own table of loggers, mode and note handlers, and each logger belongs for good to the context it was made in (the one given as context=, or else the global one), whose mode it takes over. Whatever is done with other contexts and other loggers (making them, switching the global context, flushing, enable_async, disable_async, adding and removing loggers, logging) changes nothing about a logger that is in no other context's table: not its settings, queue, active parent or actions, and no sink or hook is called on its behalf. context.flush() delivers exactly the queues of the loggers in its own table. What goes wrong on behalf of a logger or context is told to the handlers of that context and of no other. With a single context everything is as if there were no others.", "quantifier": "all histories of calls on any number of contexts, loggers and actions, with any sinks and hooks, raising or not", "why_tests_cant": "the property compares every possible interleaving of calls on different contexts with the absence of those calls; tests use one global context", "anchors": ["lithoxyl/context.py:LithoxylContext", "lithoxyl/context.py:get_context", "lithoxyl/context.py:set_context", "lithoxyl/context.py:note", "lithoxyl/logger.py:Logger.__init__", "lithoxyl/logger.py:Logger.flush", "lithoxyl/action.py:Action.__exit__"]}
{"id": "C147", "title": "Names and messages may be any object", "statement": "Action names and messages need not be text. The text of the event is what str() gives for the object (for an action's name: its repr if str fails). Calling with text is the ordinary call. An object that is false stands for the default message of begin, success, failure and exception. If the object cannot be turned into text, the call raises exactly that exception, the event in question is neither recorded nor published, and every other guarantee (event ids unique, begin at most once and before any end, nothing received that was not published, warnings recorded as published) keeps holding in histories containing such calls. The failing call should have no other effect.", "quantifier": "all histories of calls with any objects whose truth, str, repr and + answer or raise anything, any sinks and hooks, raising or not", "why_tests_cant": "the objects' methods may fail at any of several points inside each call, and what must survive is every guarantee of every later history", "anchors": ["lithoxyl/action.py:Action.begin", "lithoxyl/action.py:Action.warn", "lithoxyl/action.py:Action.success", "lithoxyl/action.py:Action.failure", "lithoxyl/action.py:Action.exception", "lithoxyl/action.py:Action._end", "lithoxyl/action.py:Action.__init__", "lithoxyl/logger.py:Logger.comment"]}
{"id": "C148", "title": "Sinks, hooks and handlers may use lithoxyl themselves", "statement": "Whatever lithoxyl calls (the on_* methods of sinks, preflush hooks, note handlers) may in turn make any call the application may make, on the same loggers and actions and to any depth, and may return or raise. Then still: event ids are unique; of an action at most one begin is published and its warnings are published in order, and an end is only published after the begin; no sink gets an event more often than it was published, and what is queued or being handed out is in no second place; a sink hears of a begin at most once; exceptions heard of are recorded on their actions; queues stay bounded; when a publication on a synchronous logger comes back normally, every sink the logger had has got the event; when a flush comes back normally, the logger's queue is empty. No sink should hear of the end of an action before its begin.", "quantifier": "all histories of one thread, any nesting of calls made from sinks, hooks and handlers, any mix of loggers, modes and exceptions", "why_tests_cant": "what a sink does in response is unbounded in depth and kind, and the loops lithoxyl is in the middle of see every change", "anchors": ["lithoxyl/logger.py:Logger.on_begin", "lithoxyl/logger.py:Logger.on_end", "lithoxyl/logger.py:Logger.flush", "lithoxyl/logger.py:Logger.set_sinks", "lithoxyl/logger.py:Logger.add_sink", "lithoxyl/action.py:Action._end", "lithoxyl/action.py:Action.__exit__", "lithoxyl/context.py:LithoxylContext.flush", "lithoxyl/context.py:LithoxylContext.note"]}
{"id": "C149", "title": "Statistics sinks that could be made can be used", "statement": "RateSink, CounterSink and EWMASink raise TypeError for a getter that cannot be called; one that could be made uses the getter it was given, and without one the end time of the action (RateSink), its name (CounterSink), its duration (EWMASink), and takes every event.", "quantifier": "all arguments, all histories of events", "why_tests_cant": "ranges over all options and all histories; what options do shows only at the first event of a logger, name or status", "anchors": ["lithoxyl/sinks.py:RateSink.__init__", "lithoxyl/sinks.py:RateSink.on_end", "lithoxyl/sinks.py:EWMASink.__init__", "lithoxyl/sinks.py:EWMASink.on_end", "lithoxyl/sinks.py:CounterSink.__init__", "lithoxyl/sinks.py:CounterSink.on_end"]}
{"id": "C150", "title": "The floating point variance is accurate", "statement": "After adding n finite doubles (2 <= n < 2^52) that lie between lo and hi, with hi - lo at least 2^-511, and are at most M in size, MomentAccumulator's variance, computed with every operation rounded, differs from the exact sample variance of the values by at most n * 2^-53 * (88 * (hi - lo)^2 + 126 * (hi - lo) * M), so that values close together but far from zero lose no more than that. (Where nothing overflows.)", "quantifier": "all lists of doubles of at least two and fewer than 2^52 values; any rounding with bounded relative error", "why_tests_cant": "Errors add up over the history; tests see a few lists and cannot bound the worst one", "anchors": ["lithoxyl/moment.py:MomentAccumulator.add", "lithoxyl/moment.py:MomentAccumulator.variance"]}
{"id": "C151", "title": "Histograms in floating point", "statement": "In double arithmetic get_histogram() of a reservoir accumulator that has seen at least one value, for q points strictly between 0 and 1 in increasing order, gives one cell more than there are points; the cells lie next to each other and cover the quantiles from 0 to 1 and the values from the minimum to the maximum; their ratios are the lengths of the cells and add up to 1 up to rounding; each count is non-negative and within one of its share of the values.", "quantifier": "all histories of values and reads, all lists of points in order, all roundings with bounded relative error (doubles among them)", "why_tests_cant": "Rounding turns shares just below a whole number into it; tests try points for which it does not", "anchors": ["lithoxyl/quantile.py:QuantileAccumulator.get_histogram", "lithoxyl/quantile.py:ReservoirAccumulator"]}
{"id": "C152", "title": "Publishing in asynchronous mode waits for nobody", "statement": "While a logger is in asynchronous mode, begin, warn, end and comment calls complete at once, whatever other threads do with the logger, also while a flush is stuck in a sink or others wait for it: the event is queued behind the ones already there, no sink is called, and no other thread has to take or has taken a step. This holds too for code inside sinks and preflush hooks.", "quantifier": "all schedules of publishing, flushing and failing threads up to the call, all numbers of calls and threads", "why_tests_cant": "Whether a call can be blocked depends on where every other thread is; tests stop a flush in few places", "anchors": ["lithoxyl/logger.py:Logger.on_begin", "lithoxyl/logger.py:Logger.on_end", "lithoxyl/logger.py:Logger.on_warn", "lithoxyl/logger.py:Logger.comment", "lithoxyl/logger.py:Logger.flush"]}
{"id": "C153", "title": "Rates in floating point are right to the last digits", "statement": "With doubles, RateAccumulator.get_rate raises ZeroDivisionError exactly when the exact quotient does (two different times never have a difference that is rounded to zero); what it returns differs from the exact rate by at most a relative error of 2^-51 (and half the smallest double) and never has the wrong sign. In what RateSink.get_rates returns for rates that are not negative, every '__all__' total is at least each total and each rate below it, although the three running sums are rounded separately, and the grand total of n accumulators has a relative error of at most about (n+4)/2^53.", "quantifier": "all accumulators with at most 2^53 events whose times are doubles, all windows, clock readings, and all maps of accumulators", "why_tests_cant": "Rounding depends on every bit of the times and on the order of the loops; a test compares a few sums with a tolerance.", "anchors": ["lithoxyl/sinks.py:RateAccumulator.get_rate", "lithoxyl/sinks.py:RateSink.get_rates"]}
{"id": "C154", "title": "What repr tells of actions, events and levels can be trusted", "statement": "The repr of an action, an event or a level returns at any moment, whatever characters its texts have. The repr of an action shows its name, as a literal that gives back exactly the name, the name of its level in upper case, and its status: begin as long as it has not ended, afterwards how it ended last. The repr of an event shows the number of its action and its message as a literal. Actions of one class that are shown alike have the same name, level name and status; events of one class shown alike belong to the same action and have the same message; levels shown alike have the same name and value, are equal, hash alike, and neither is below the other.", "quantifier": "all names, messages and level names of any characters (quotes, backslashes, control characters, any Unicode), all levels, all histories of calls and all moments in them", "why_tests_cant": "Unambiguity is about all pairs of texts: a test shows a few names, but whether a name with quotes and spaces can imitate another level or status depends on every combination of characters.", "anchors": ["lithoxyl/action.py:Action.__repr__", "lithoxyl/action.py:Event.__repr__", "lithoxyl/common.py:Level.__repr__"]}
{"id": "C155", "title": "Showing sensible sinks, formatters and stream emitters", "statement": "The repr of a SensibleSink shows its filters in order, its formatter and its emitter; if one of them cannot be shown it raises what the first of them raises. The repr of a StreamEmitter or FileEmitter shows its stream or raises what that raises. The repr of a message formatter is its class and, in brackets, a literal for its template, so that formatters of one class are shown alike exactly if their templates are equal. Showing a logger whose sensible sinks have parts that raise Exceptions raises nothing: it is the plain repr if one of the parts cannot be shown, and otherwise shows every sink.", "quantifier": "all lists of filters, formatters, streams and sinks, whatever their reprs do, and all templates", "why_tests_cant": "ranges over all templates and over arbitrary failing parts in every position", "anchors": ["lithoxyl/sensible.py:SensibleSink.__repr__", "lithoxyl/sensible.py:SensibleMessageFormatter.__repr__", "lithoxyl/emitters.py:StreamEmitter.__repr__", "lithoxyl/logger.py:Logger.__repr__"]}
{"id": "C156", "title": "Showing a logger that its sinks show again", "statement": "Showing a logger returns a text even if its sinks show the logger in their own reprs, at whatever distance from the recursion limit. With no such sink the text does not depend on that distance; with one it grows by the same amount for every two frames; with h of them it contains h^m plain reprs for 2m+1 frames, so that with two sinks it doubles for every two frames.", "quantifier": "all lists of sinks, texts around the logger, and numbers of frames left", "why_tests_cant": "the depth of the recursion and the number of sinks are unbounded; the growth cannot be observed by running it", "anchors": ["lithoxyl/logger.py:Logger.__repr__", "lithoxyl/logger.py:Logger.sinks"]}
