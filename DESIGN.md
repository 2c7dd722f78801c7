# Formal model of lithoxyl in Lean 4

## Layout

* `properties.jsonl` : the English properties C01, C02, ...
* `lean/Verif/Model/*.lean` : the model, one file per source file or concern.  Each definition
  cites the file and lines of /repo it models and says where it simplifies.
* `lean/Verif/Spec/*.lean` : small independent specifications used in the theorem statements.
* `lean/Verif/Lemmas/*.lean` : invariants and helper lemmas (not properties).
* `lean/Verif/Props/*.lean` : the property theorems, each followed by a concrete non-vacuity `example`.
* `MANIFEST.json` : property -> theorem names and status.
* `seeded/LOG.jsonl` : wrong-program experiments, one line each.

## Method

The model is a set of total functions that compute what the Python functions compute, on Lean data.
Stateful classes become a state record and a `step` function; properties over histories are proved by
induction over the list of operations.  Python exceptions are values (`Except`), and the state reached
before an exception is kept, as in Python.  Everything outside lithoxyl (clock, random choices, sinks,
task functions, file system, message rendering, float rounding) is a parameter the theorems quantify
over.  When a property is false of the code, the theorem `..._violated` proves the negation of the full
statement with a concrete witness in the model, and a `..._partial` theorem proves the strongest part
that holds; the section "Disagreements" lists these.

## Plan per property

| id | what is modelled | how it is proved |
|----|------------------|------------------|
| C01, C07, C08, C09, C10, C12, C64, C65 | `Action`, `Logger` and the parts of the context they use, as one world with an operation per public call (`Model/Core`, `Action`, `Logger`, `Context`, `Step`) | invariant by induction over arbitrary operation lists |
| C02, C03, C04, C05 | with blocks as structured application programs (interaction trees) over the same world | induction over the program; counterexample worlds for the violated parts |
| C06 | the parent loop with its counter | induction on the counter against a path specification |
| C11 | `'%x'` rendering, string comparison | injectivity by decoding; order by length/lexicographic lemma; witness where the length changes |
| C13 | registry operations | invariant over operation lists |
| C14, C15 | hook loops of the synchronous path | induction on the hook list; witness for C15 |
| C16, C17, C18, C19, C25 | queue, flush loop, preflush hooks | refinement to an abstract published sequence; bounded-deque lemma; `C18_exact`: simulation of every history by the `Outbox` of `Spec/Outbox.lean`, with no restriction on mode switches, flushes or changes of sinks |
| C20, C21, C22 | the context's logger table, flush, enable/disable | induction over the logger list; witness for C21 |
| C23 | small-step model: threads publish (atomic append), take the lock, pop, call hooks one at a time, release | inductive invariant over all reachable states; `C23_sequential` (Props/ConcSeq.lean) shows by simulation that the sequential `flush` is one of the schedules |
| C24 | flush with sinks that may publish or flush re-entrantly | witnesses (non-termination as: for every fuel the queue is non-empty) and partial theorem |
| C26, C29 | the interval update of the actor's loop, over any ordered field | invariant over outcome lists |
| C27, C28 | small-step model of actor thread and callers | inductive invariant; witness for C27 |
| C30 | handler cell and install/uninstall | invariant over operation lists |
| C31 | note with an abstract formatting function that may raise | induction over handlers |
| C32, C33, C34 | Level comparison methods, registry | direct proof, witnesses for the violated parts |
| C35, C36, C37, C38 | filter, sink, formatter, getter dict with abstract getters that may raise | induction over segment lists |
| C39 | json.dumps string escaping on code points | decoder and round-trip proof |
| C40 | the message cache over data map histories | invariant; witness |
| C41, C42, C43 | deques, stream with an I/O oracle | induction over histories |
| C44 | the priority table | exhaustive over the finite table, and symbolic for other levels |
| C45, C46 | accumulator over any field of characteristic 0 | induction with ring identities |
| C47, C48, C49 | bisect/insort on lists over any linear order | invariants; witnesses |
| C50, C51 | reservoir with rounding function and random oracle | order-statistics lemmas; witnesses |
| C52, C53, C54 | P2 estimator over any ordered field with floor | inductive invariant |
| C55, C60 | EWMA over the reals with the real exponential; the sink's nested sums | invariant, limit argument; witnesses |
| C56, C57, C58, C59 | rate/count/quantile sinks as nested maps | invariant against a count over the event list |
| C61 | wrap as a program over the world model | corollary of C02-C04 |
| C62 | attribute graph with wrap/unwrap traversals | invariant over the traversal |
| C63 | interleavings of enter/exit on the shared per-logger cell | witness and partial theorem (well nested schedules) |
| C66 | all worlds again, with note handlers that may raise | comparison of runs with and without raising handlers; witnesses |
| C67 | `Formatter.lean`, `Template.lean`: a formatter per event, made from the templates given | what an event is rendered as, for every combination; witness |
| C68, C69, C70 | `Event.message`, the template parser and the default messages on character lists | induction over the text; witnesses |
| C71 | RateSink.get_rates over the same nested maps | sums of maps |
| C72 | boltons' ThresholdCounter, which CounterSink relies on | counting invariant (lossy counting) |
| C73, C74 | get_histogram over the sorted data | induction over the points; witness for C74 |
| C75, C76, C77 | the built-in fields as functions of the world and the event | invariants of reachable worlds; witnesses |
| C78, C79, C80 | small-step model of threads publishing on and reconfiguring one synchronous logger (lists as objects) | inductive invariant over all reachable states; witnesses |
| C81, C82, C83 | the world model | invariant by induction over arbitrary operation lists |
| C84, C85 | enabling/disabling async mode, atexit handlers, SIGTERM and the end of the process on top of the world model | invariant over histories; witness |
| C86, C87, C88 | formatter construction and formatting on character lists, the table of built-in fields, the default quoter | induction over parts, pieces and characters; witness |
| C89 | the same, with a reader of entries in the specification | induction over fields |
| C90 | file emitters on one file: positions, append mode, truncation | invariant over operation lists; witnesses |
| C91 | UTF-8 with backslashreplace, a strict decoder in the specification | induction over the text, case analysis over code points; witnesses |
| C92 | formatter, encoding and file together, and a reader of log files in the specification | composition of C89, C90, C91 |
| C93 | check_encoding_settings over arbitrary tables of codecs and error handlers | case analysis; witness |
| C94 | the search for the calling frame over arbitrary stacks | induction over the stack; witnesses |
| C95, C96 | timestamps: the Gregorian calendar, digits, boltons' LocalTZ with arbitrary summer time | induction over days (the specification iterates the next day), lexicographic order; a theorem for every zone with summer time |
| C97 | fixed-point rendering with rounding, duration_auto, over any ordered field | rounding bounds, a reader in the specification; witness |
| C98 | DevDebugSink as a sink of the world model | case analysis of the exit; a theorem for every re-raised exception |
| C99 | `Modes`: threads that publish (test, then append or deliver), flush under the lock, switch modes, make loggers | conservation (multiset) invariant over every schedule |
| C100 | `Modes` | invariant of the thread in `disable_async`: how far it is with a logger, what is queued or pending; two witnesses |
| C101 | `Weak`: the weak table of loggers, the application's references, the collector, a flush in steps | invariant up to the copy of the table and one during the flush; witness |
| C102 | `Shared`: one action, threads in begin, warn and _end, single attribute accesses as steps | counting invariants over every schedule; three witnesses |
| C103 | `Moment` | from the central sums of C45: a square of a quadratic in the deviation summed (Pearson), the sum of squares around the middle (Popoviciu), substitution for the change of unit |
| C104 | `Concurrent`: flush by many threads in single steps | invariant relating the sink, the event in hand and the queue; lexicographic measure for the return |
| C105 | `Concurrent`, with an exception at any step | the same invariant with a count of what is lost; lock ownership invariant |
| C106 | `Interrupt`: nested with blocks in single steps, one exception anywhere | induction over programs: what is published about which actions, the active action; witnesses in `__enter__` and `__exit__` |
| C107 | `Fork`: processes, each with the threads of `Concurrent`; a fork copies queue and lock | invariants of every process over every history; witnesses for double delivery and the orphaned lock |
| C108 | `Parents`: the hooks for the active action, with the key under which they keep it | other threads do not change what a thread sees; induction over programs of blocks |
| C109 | `Copying`: the copy of the table of loggers in single steps, beside other threads | invariant of the copying thread; witnesses for each call |
| C110 | `Global`: the module global, get_context in its four steps, threads, loggers and their contexts | an invariant that no thread is about to replace the context, over every schedule; witnesses for the first calls |
| C111 | `SinkConc`: RateSink.on_end and get_total_counts in single steps, any threads | invariants on who has which accumulator and on what is under way, over every schedule; a reader's walk by induction; witnesses |
| C112 | World model: states that differ in modes, queues and deliveries only (`SameBut`) stay so under the same calls; with C16 for what sinks get. | simulation, induction over histories |
| C113 | `Spec/Script.lean`: scripts (blocks, warn, comment, set, success/failure, raise, try), their compilation to `Prog` and their transcript | `Lemmas/Script.lean`: what each call publishes, induction over scripts; `Props/Script.lean`: published events and, through the per-sink order of C112, received events are the transcript |
| C114 | `Model/ResConc.lean`: `add` and `_get_quantile` of a reservoir in single steps, arrays by identity, any threads | `Props/ResConc.lean`: five bad schedules, an invariant of all schedules, one of schedules where adding and reading do not overlap, one of schedules with one adder at a time |
| C115 | `Model/Line.lean`: the getters, the formatter, the sink and the file emitter put together; `Spec/Story.lean`: what a file should tell | `C113_delivered`, then C36, C89 and C92 for the events delivered; fields that last (C76) for the moment of rendering; `Props/StorySyntactic.lean`: the condition on data read off the script |
| C116 | `Model/EwmaConc.lean`: `add` and `get_rates` in single steps, any number of threads, a clock that goes on by itself | refinement of the sequential model (`Model/Ewma.lean`) when calls do not overlap; an invariant over all threads when one reads; witnesses otherwise |
| C117 | a P2 accumulator in single steps, any threads | invariants over schedules: every value is under way, kept, given or failed; phases of the one running call; settled states stay settled |
| C118 | `Model/Elapsed.lean` on `Model/Step.lean` | `unbegun_run`, `begun_at` and the life-of-an-action invariant (`life_run`), extended with the times of end events |
| C119 | `Model/MakeStream.lean`: the constructor's checks on any object, and what its `write` does with bytes | case analysis for acceptance; induction over the entries for what is written; witnesses for the streams wrongly accepted or refused |
| C120 | `Model/PyFormat.lean`: Python's format specs applied to the values of the fields, joined with `Fields` and `Template` | parse of each declared spec computed; case analysis over the fields; C89 for the template; witness in Python 3 for `exc_tb_list` |
| C121 | `Model/Getters.lean`, `Model/GettersP2.lean`: the `on_end` of RateSink, CounterSink, EWMASink and QuantileSink (both kinds of accumulators) with getters that may raise, after the accumulator was stored; `to_dict` and `repr` of QuantileSink | the routing lemmas of C57-C59 with an addition that may do nothing; a reservoir raises exactly when it is empty (C50); false of QuantileSink, shown by a witness |
| C122 | `Model/Attrs.lean`: attribute lookup on events (class, instance, `__getattr__`), with a bounded stack, and what copying does to a new instance | case analysis on the kinds of events; induction on the stack depth for the endless lookup |
| C123 | `Model/ActorStats.lean`: the loop of an actor thread with its clock readings and counters, for runs one after the other | induction on the rounds and the runs; the exception a call that ends the thread makes is a witness |
| C124 | `Model/MsgRec.lean`: reading the messages of a set of events on a finite stack, with the kept texts, when templates mention messages | induction on the stack and on the parts; with a rank on the events every message says what it should; a message that mentions itself k times has at least k^depth characters |
| C125 | `Model/NormTimes.lean`: `get_norm_times` of a rate accumulator, the rounding a parameter | induction on the timestamps added: what is kept is the newest part of them |
| C126 | `Model/WrapAll.lean`, with the level each function gets | an invariant of the traversal for any target: every changed name has a wrapper with a returned name and the level asked for; what is called stays, for the targets of C62 |
| C127 | `Model/Target.lean`: how `wrap_all` and `unwrap_all` find the module when no target is given | case analysis: the lookup fails for every stack |
| C128 | `Model/ExcMessage.lean`, and `Model/ExcTemplate.lean` for how `%` makes it: the text made for an exception event without a message, used as a template by `Model/Message.lean` | the template has one field; C37 for what it is filled with; witnesses |
| C129 | `Model/DebugOptions.lean`: the two options of `DevDebugSink`, over any class hierarchy; `Model/DevDebug.lean` (C98) has what the sink does to a with statement | case analysis; witnesses |
| C130 | `FloatMoment.lean` over `Float.lean`: `add` and `variance` with a rounding after each operation; the rounding is any monotone, odd, idempotent function fixing 1 and 2 with `rnd (rnd x / 2) ≤ x` | IEEE rounding to nearest even with p bits and gradual underflow is such a function; each new mean lies between the old mean and the value (toward lemma), m2 grows by products of equal sign |
| C131 | `FloatP2.lean`: markers whose heights are computed with rounding, integer positions | invariant: heights sorted, positions strictly increasing; an adjustment is taken only if it keeps the order |
| C132 | `FloatQuantile.lean`: `_get_quantile` with rounding | false (witness in doubles); error bound from `Near u η` |
| C133 | `FloatEwma.lean`: `add`, `_update`, `get_rates` with rounding, `math.exp` a parameter with values in [0, 1] | false (witness in doubles over the reals); an invariant over all histories: steps of weight at most 1/2 do not overshoot, overshooting never adds up since a rate outside the range moves back |
| C134 | `FloatMoment.lean` | induction: n times the error grows by at most n times the error of one step |
| C135 | `Quantile.lean`, `P2.lean`, `Ewma.lean` | simulation between the history and the history without its reads: same values up to order, and everything reported depends on the sorted values only; two witnesses |
| C136 | `P2.lean` | refinement: the list of markers is the arrays of the published algorithm, marker by marker, under the invariant that positions and heights are ordered; the parabola is in Lagrange's form in the specification; one witness |
| C137 | `Quantile.lean`, `P2.lean`, `Accum.lean` | every operation commutes with the conversion; for `a < 0` by the specification of C50 and reversal |
| C138 | `PyFormat.lean`, `Template.lean`, `Fields.lean` | the spec of a column is read back by the parser of format specs (the digits of the width, the fill and the side); then field by field as for C120, over C89 |
| C139 | `P2Sink.lean`: the two-level table of P2 accumulators, shown by `to_dict` and `repr` with the reads they make | invariant over events and earlier calls: every cell is a fresh accumulator given the values of its pair, in order, with reads in between; reads change no answer; a read fails exactly when the estimator runs and does not track the point |
| C140 | `Prog.lean`, `Step.lean`, `Sinks.lean` | C113 gives what `on_end` is called with, line by line of the transcript; counting commutes with that; then the tables of C57-C59 |
| C141 | `WrapAll`: `enable_wrap` in `extras` (`make`) | `C141_own_partial`, `C141_reads_partial`: an invariant of the traversal (`off_inv`) that storing what was read keeps; counterexamples by evaluation |
| C142 | `FloatActor`: the interval of `Actor` with rounding after every operation | bounds from monotone rounding; at most nine successes from the error bound of a rounding; whole settings: all values are eighths, which are doubles; counterexample by evaluation in the kernel |
| C143 | `Reprs`: the texts of `repr` of aggregates, rate accumulators, rate sinks and loggers, over `Sinks`, `Emitter`, `Decimal` | counts and rates from C41, C56, C57, C71; the number read back from the text is within half a unit of the fourth place; a logger by cases on its first failing sink; counterexample with a clock set back |
| C144 | `MakeSink`: `QuantileSink.__init__` and what its options do in `on_end` and `to_dict`, over `Getters`, `P2Sink` | cases on the arguments; induction on the events; C54 for the points, C121 and C139 for reading; counterexamples |
| C145 | `EmitConc`: steps of any number of threads inside one stream emitter: lookups of `self.stream`, writes, flushes, reopening, closing; streams that nobody refers to are closed | invariants over schedules: one stream while nothing goes stale; entries in the file and in the buffers as multisets, and who refers to which stream, otherwise; witness with three threads; one thread alone is the model of C42 |
| C146 | `Contexts`: any number of contexts with their own tables, modes and handlers, the global one, and the context each logger was made in; the calls on loggers and actions are those of `Model/Step.lean`, run on the state loaded with the context they work on | a frame relation for one logger proved call by call (`Lemmas/Apart.lean`), carried over histories with the invariants of the shared state; notes by bounding every call into foreign code; with one context the model refines to `Verif.run` |
| C147 | `Objects`: names and messages as objects whose truth, `str`, `repr` and `+` each answer or raise; every call that takes one, falling back to the calls of `Model/Step.lean` once the text is known; simplification: an object answers the same each time and its methods do not log | equality with the ordinary call for text; case analysis per call for the failures; the bundle of invariants (`Lemmas/Objects.lean`) carried over histories that mix both kinds of call |
| C148 | `Stack`: the same calls as `Model/Step.lean`, cut at the points where lithoxyl calls a sink, a preflush hook or a note handler; an explicit stack of suspended calls; code that is not lithoxyl's makes further calls, returns or raises as it likes; the lists a loop is going over are named by generation, since `add_sink` extends them and `set_sinks` replaces them | an invariant over all steps (ids, publications, counts of received + queued + being handed out, frames on the stack); induction over the steps until a call returns; a simulation of the world model (`C148_covers`); counterexamples for the order |
| C149 | `MakeStats`: the constructors of RateSink, CounterSink and EWMASink and what their options do in `on_end`, over `Sinks`, `Ewma` | cases on the arguments; induction on the events; with good options the tables of C57, C58 and C60; counterexamples |
| C150 | `FloatMoment.lean` | error of each operation of a step in terms of the spread; induction over the values with C134 for the mean |
| C151 | `FloatHistogram`: get_histogram with every operation rounded, over `FloatQuantile` | error of each cell; sums over adjacent cells; counterexample for the counts |
| C152 | the small-step model of C23 | induction over the publishing calls from any reachable state |
| C153 | `get_rate` and the loops of `get_rates` with every operation rounded (`Model/FloatRates.lean`) | a double is a multiple of the smallest one, so a difference of doubles is exact or normal; running sums are monotone; induction for their error |
| C154 | `repr` of texts, actions, events and levels (`Model/PyRepr.lean`), over the world model | a reader of Python's literals (`Spec/PyLiteral.lean`) that gets back every text, character by character; the parts of a text are told apart by where literals and numbers end |
| C155 | `repr` of sensible sinks, message formatters and stream emitters (`Model/SinkRepr.lean`), what showing a part does being a parameter | the first part that cannot be shown decides, by cases on where it is; formatters by C154's reader; loggers by C143 |
| C156 | `Logger.__repr__` of a logger that its own sinks show again, down to the recursion limit (`Model/SelfRepr.lean`); the frames left are an argument | induction over the frames; the length of the text by a recurrence over every second frame |

## Trusted base

* Lean's kernel.  No axioms of our own, no `sorry`, no `native_decide`, no `bv_decide`.
* For each theorem at most the axioms `propext`, `Classical.choice` and `Quot.sound`; `AXIOMS.md` lists them per
  theorem.
* The correspondence between the Lean definitions and the Python text is by reading; each definition cites the lines
  it models so that this can be checked.
* The behaviour of what lies outside lithoxyl, as described next.

### What is modelled, by source file

| file | modelled in | left out |
|------|-------------|----------|
| action.py | `Core`, `Action`, `Step`, `Prog`, `Depth`, `Message`, `ExcMessage`, `ExcTemplate`, `MsgRec`, `Fields`, `Shared`, `Interrupt`, `Elapsed`, `Attrs`, `Objects`, `Stack`, `PyRepr` | what `ExceptionInfo` extracts (a parameter that may fail) |
| logger.py | `Core`, `Logger`, `Step`, `Wrap`, `Concurrent`, `SyncConc`, `Reentrant`, `Stack`, `Frames`, `Fork`, `Reprs`, `SelfRepr`, `Objects` | |
| context.py | `Core`, `Context`, `Step`, `Note`, `Signal`, `Exit`, `Modes`, `Weak`, `Parents`, `Copying`, `Global`, `Contexts`, `Stack` | |
| actors.py | `Actor`, `ActorStats`, `FloatActor` | real time (waits end at arbitrary moments) |
| sensible.py | `Sensible`, `Fields`, `Line`, `Message`, `Template`, `Formatter`, `Json`, `Iso`, `Decimal`, `PyFormat`, `SinkRepr` | format specs beyond text, `d`, `f` and `g` (parameters of `PyFormat`; a parameter as a whole in `Template`) |
| emitters.py | `Emitter`, `EmitConc`, `Files`, `Utf8`, `Encoding`, `MakeStream`, `Reprs`, `SinkRepr` | separators that are neither strings nor bytes |
| _syslog_emitter.py | `Emitter` | the syslog connection |
| sinks.py | `Sinks`, `FloatRates`, `Getters`, `GettersP2`, `NormTimes`, `Dict`, `Emitter`, `DevDebug`, `DebugOptions`, `SinkConc`, `ResConc`, `Reprs`, `SinkRepr`, `MakeSink`, `MakeStats` | what happens inside the debugger |
| accumulators.py | `Accum`, `Bisect` | |
| quantile.py, p_squared.py | `Quantile`, `P2`, `Histogram`, `ResConc`, `P2Conc`, `P2Sink`, `FloatQuantile`, `FloatHistogram`, `FloatP2` | the demonstration at the end of p_squared.py |
| moment.py | `Moment`, `FloatMoment` | |
| ewma.py | `Ewma`, `EwmaConc`, `FloatEwma` | the demonstration at its end |
| common.py | `Level`, `PyRepr` | |
| utils.py | `Guid`, `WrapAll`, `Target`, `Wrap`, `Encoding` | |

### Simplifications that matter

* Numbers are exact: elements of any ordered field (with a floor function where the code takes one), reals for EWMA.
  Where the code stores single precision floats the rounding is a parameter.  Rounding of doubles is modelled for moments,
  P2 estimators, reservoir quantiles, moving averages, actor intervals and rates (C130-C134, C142, C150, C151, C153, `Float.lean`); there overflow to infinity, NaN, the sign of zero and
  more than 2^53 values are left out.  Elsewhere rounding is not modelled.
* Sinks, filters, getters, tasks, note handlers and preflush hooks are arbitrary functions of what they are given that
  return or raise; `Exception` and `BaseException` are told apart.  In the world model they do not call back into
  lithoxyl; `Reentrant` (one queue) and `Stack` (every call, any nesting, one thread) model those that do.
* In the concurrent models each step is one atomic operation of CPython (an append, a popleft, taking a lock, one call
  of a hook).
* Memory exhaustion is left out, and recursion limits except in `Attrs` and `MsgRec`.  Exceptions from signal handlers between any two steps are
  modelled in `Concurrent` (flush) and `Interrupt` (with blocks) only.  Weak references to loggers are modelled in
  `Weak` only; elsewhere a logger stays registered.
* External code modelled from its documentation: `bisect`, `deque`, `atexit`, `signal`, `threading.Event`,
  `json.dumps` of strings, `str.format` templates, `str.encode` (UTF-8, UTF-16), file objects, `strftime`, `gmtime`, `tzinfo.fromutc`, boltons' `LocalTZ`, `%` formatting of numbers, `repr` of texts, boltons' `ThresholdCounter` and `tokenize_format_str`.

### How the models fit together

The concurrent and specialised models are tied to the world model by theorems, so that they do not drift apart:

* `Concurrent` and `Logger.flush`: `C23_sequential`.
* `SyncConc` and `Logger.publish`, `addSink`, `setSinks`: `C78_sequential`, `C80_add_sequential`, `C80_set_sequential`.
* `Reentrant` and `Logger.flush`: `C24_sequential`.
* `Stack` and `Step`: `C148_covers`.
* `Shared` and `begin`, `warn`, `success`, `failure` of `Action`: `C102_sequential`.
* `Interrupt` without an interruption and `exec` of the world model, for every program of blocks, marks, raises and handlers: `C106_sequential`.
* `Modes` and `publish`, `newLogger`, `setAsync`, `flush`, `ctxFlush`, `enableAsync`, `disableAsync`, `removeLogger` of the world model, for every sequence of such calls: `C99_sequential`.
* `Copying` and `Modes`, call by call: `C109_sequential`.
* `Weak` and `Copying`, whole histories with room in the queues: `C101_sequential`.
* `Global`, one thread, and `Weak`: `C110_sequential`.
* `ActorStats` and `Actor`, run after run: `C123_sequential`.
* `Parents` with the default hooks and the world model: `C108_sequential`.
* `EwmaConc`, one thread alone, and `add`, `get_rates` of `Ewma`: `C116_add_sequential`, `C116_read_sequential`.
* `ResConc`, one thread alone, and `resAdd`, `resQuantile` of `Quantile`: `C114_add_sequential`, `C114_read_sequential`.
* `P2Conc`, one thread alone, and `accAdd`, `accQuantile` of `P2`: `C117_add_sequential`, `C117_read_sequential`.
* `SinkConc`, one thread alone, and `rateOnEnd` of `Sinks`: `C111_sequential`.
* `FloatMoment`, `FloatP2`, `FloatQuantile`, `FloatHistogram`, `FloatEwma`, `FloatActor`, `FloatRates` with exact arithmetic and `Moment`, `P2`, `Quantile`, `Histogram`, `Ewma`, `Actor`, `Sinks`: `run_exact`, `C131_exact`, `resQuantile_exact`, `getHistogram_exact`, `C133_exact`, `C142_exact`, `C153_exact`.

## Disagreements

Properties a user may expect that are false of the code.  Each has a theorem that proves the negation from a witness.

* C03: An on_exception hook that raises keeps the exception from being recorded: the action never ends. (`exception_recorded_violated`)
* C04: A raising sink replaces the exception of a with block, or makes a block fail that completed normally. (`with_normal_violated`, `with_exception_violated`)
* C05: Leaving a with block clears or changes the active action when the action was made elsewhere, has an explicit parent, or a sink raises. (`active_restored_violated`, `active_restored_parent_violated`, `active_restored_failure_violated`)
* C07: An on_begin method that raises keeps success() on an action that was not begun, and an on_exception method that raises keeps exception(), from changing the status. (`C07_violated`)
* C09: An on_exception method that raises keeps exception(key=value) from storing the value. (`C09_violated`)
* C11: GUIDs do not sort like ids where the number of hexadecimal digits grows. (`C11_order_violated`)
* C12: Every status call outside a with block publishes another end event. (`end_at_most_once_violated`)
* C15: A raising sink of a synchronous logger keeps the event from later sinks and raises into the application. (`sink_isolation_violated`)
* C18: set_async(False) with a backlog lets later events overtake queued ones. (`mode_switch_reorders_violated`; `C18_overtakes` says so for every such state)
* C21: enable_async calls set_async(False): it makes registered loggers synchronous. (`enable_async_violated`)
* C24: A sink that publishes on every event keeps flush running for ever; a sink that flushes reorders. (`reentrant_flush_returns_violated`, `reentrant_order_violated`)
* C26: With max_interval below interval every success lengthens the wait without bound. (`C26_reversed_violated`)
* C27: start() on an actor that is still stopping returns silently, and the task is never called again. (`C27_violated`)
* C28: Two concurrent start() calls make two threads, of which stop() ends one. (`C28_two_users_violated`)
* C29: A note callback that raises ends the actor thread. (`C29_violated`)
* C31: A raising note handler keeps the others from being called and reaches the caller. (`C31_violated`)
* C32: Level equality is not transitive and not consistent with < and hash. (`C32_eq_trans_violated`, `C32_consistent_violated`, `C32_hash_violated`)
* C35: A filter level of 0 is read as the highest level. (`C35_zero_violated`)
* C39: Text with a lone high surrogate followed by a lone low one collides with other text. (`C39_surrogates_violated`)
* C40: A message shows the data map at the time of its first non-empty read, not at creation. (`C40_violated`)
* C42: A short write of a raw stream loses the rest of the entry and its separator, a partial write is repeated by the retry, a lost buffer loses entries, a failing reopen raises. (`C42_short_write_violated`, `C42_error_escapes_violated`, `C42_partial_write_violated`, `C42_lost_buffer_violated`)
* C43: Separators that overlap themselves do not split back. (`C43_violated`)
* C44: Comments and the levels _min and _max have no syslog priority. (`C44_violated`)
* C47: MaxAccumulator drops values although it has room and overwrites larger ones. (`C47_violated`)
* C48: MinAccumulator likewise. (`C48_violated`)
* C49: HistogramCounter.add raises for infinities and NaN. (`C49_violated`)
* C50: Quantiles lie outside [min, max] when single precision rounds outwards. (`C50_violated`)
* C51: A capped reservoir does not count the values it does not keep. (`C51_violated`)
* C53: P2Accumulator does not count its first values and stops offering untracked quantiles. (`C53_violated`)
* C55: Reading EWMA rates raises ZeroDivisionError in the instant of creation or update. (`C55_violated_raises`, `C55_violated_stable`)
* C56: Rate windows ignore their end, can be negative, raise ZeroDivisionError, or take 0 as absent. (`C56_violated_end`, `C56_violated_negative`, `C56_violated_raises`, `C56_violated_zero`)
* C57: Loggers that share a name, and the label '__all__', break RateSink totals. (`C57_violated_names`, `C57_violated_all`)
* C58: Loggers that share a name, and the key '__missing__', break CounterSink totals. (`C58_violated_missing`, `C58_violated_names`)
* C60: The label '__all__' breaks EWMASink aggregates. (`C60_violated`)
* C62: unwrap_all after wrap_all changes inherited functions and static methods; wrap_all misses classes first reached by a longer path. (`inherited_function_violated`, `static_method_violated`, `wrap_all_depth_violated`)
* C63: Overlapping with blocks of two threads leave a finished action active. (`concurrent_blocks_violated`)
* C66: A raising note handler stops flush for good, replaces the exception of a with block, ends the actor. (`bad_notes_flush_violated`, `with_exception_violated`, `C29_violated`)
* C67: Without a base template the text 'None' is rendered. (`C67_violated`)
* C68: Messages with a { that are not valid templates raise when read. (`C68_violated`)
* C69: Doubled closing braces stay doubled in messages without {. (`C69_violated`)
* C70: Braces in an action's name break its default messages (`C70_violated`); and the default message of `act.success(**data)` on an action without data does not show the data, since it is chosen before the data is stored (`C70_own_data_violated`).
* C71: Of loggers that share a name only one is in the table of rates. (`C71_violated_names`)
* C74: Single precision makes the ranges of a histogram overlap. (`C74_violated`)
* C76: Data map, end message, end time, duration and status_char of an event change after it. (`C76_violated`)
* C77: warn_char never has a value; event_message_raw shows the rendered message. (`C77_warn_char_violated`, `C77_raw_violated`)
* C80: Two threads adding one sink register it twice; set_sinks can lose an event for a sink in both sets. (`C80_added_twice_violated`, `C80_replaced_violated`)
* C85: A SIGTERM ends in exit status 143 instead of death by the signal. (`C85_violated`)
* C87: A defaulter that raises KeyError passes construction and makes every use raise KeyError. (`C87_violated`)
* C88: A data map entry named like an unquoted built-in field (e.g. `status_str`) is shown in its place, unquoted: line breaks in it break up the entry. (`C88_violated`)
* C90: An emitter that overwrites, next to another on the same file, destroys entries; one that could not be made has already emptied the file. (`C90_overwrite_violated`, `C90_make_violated`)
* C91: Lone surrogates are written as backslash escapes, which other text gives too; UTF-16 puts a byte order mark before every entry and separator. (`C91_violated`, `C91_utf16_violated`)
* C93: check_encoding_settings(reraise=False) returns None for valid settings whose error handler does not raise, among them the default. (`C93_returns_violated`)
* C94: A maker with a local variable `self` that is a logger is passed over; a subclass that names its first argument otherwise is taken for the maker. (`C94_violated`, `C94_subclass_violated`)
* C96: Local timestamps with microseconds show two times an hour apart alike, with the same offset, whenever summer time ends; without the zone later times are shown as earlier ones. (`C96_violated`, `C96_notz_violated`)
* C97: A duration just below a millisecond or second is shown as 1000.000us or 1000.000ms, in ten columns. (`C97_width_violated`)
* C98: A debug sink that raises an exception again does not affect what leaves the block, but keeps the action from ending and its end event from being published. (`C98_lost`, `C98_violated`)
* C100: A publishing call that found the logger asynchronous can append its event after disable_async has flushed: it stays queued. A logger made while disable_async flushes becomes and stays asynchronous. (`C100_stranded_violated`, `C100_made_violated`)
* C101: An asynchronous logger the application no longer refers to can be collected, its queued events with it. (`C101_violated`)
* C102: Threads that share an action can publish several begin events, an end before the begin, and one end event twice in place of another. (`C102_two_begins_violated`, `C102_end_first_violated`, `C102_same_end_violated`)
* C106: An exception that comes inside `__enter__` or `__exit__` leaves the action active, and possibly begun but never ended. (`C106_enter_violated`, `C106_exit_violated`, `C106_violated`)
* C107: After a fork both processes deliver what was queued; a process forked while another thread was in flush can never flush again. (`C107_twice_violated`, `C107_stuck_violated`, `C107_returns_violated`)
* C109: a logger made or removed by another thread while `flush`, `enable_async` or `disable_async` copies the table of loggers
  makes the call raise RuntimeError; at exit queued events are lost. (`C109_violated`, `C109_disable_violated`, `C109_enable_violated`)
* C110: Two threads that make the first loggers get two contexts; events of the one that is lost are never flushed through get_context(). set_context(None) can make Logger(...) fail in another thread. (`C110_violated`, `C110_lost_violated`, `C110_flush_violated`, `C110_none_violated`)
* C111: Threads that deliver to one RateSink at the same time lose counts; reading the counts while a new logger, name or status appears raises RuntimeError. (`C111_lost_update_violated`, `C111_lost_accumulator_violated`, `C111_violated`, `C111_read_violated`)
* C114: a reservoir accumulator used by threads loses values, marks unsorted data as sorted, counts two values once and can
  raise IndexError while reading. (`C114_violated`, `C114_order_violated`, `C114_index_violated`, `C114_count_violated`)
* C115: data named like a built-in field replaces it in log files, so a failed action can be written as a success. (`C115_violated`)
* C116: Threads that share an EWMA accumulator lose values, count them twice, and can make rates negative. (`C116_lost_violated`, `C116_doubled_violated`, `C116_add_violated`, `C116_negative_violated`)
* C117: Threads that make the estimator at the same time lose values, also those given to the estimator that is replaced; an add or a read that finds the temporary accumulator gone raises AttributeError. (`C117_lost_violated`, `C117_forgotten_violated`, `C117_raises_violated`, `C117_read_violated`)
* C119: `StreamEmitter` takes `StringIO` objects (its documentation names them), replaced standard streams and binary files opened for reading, and then drops every entry silently, since `write` raises and the exception is only noted; `gzip` files opened for writing are refused with a TypeError because their `mode` is a number. Misspelt options are not noticed. (`C119_violated`, `C119_reading_violated`, `C119_redirected_violated`, `C119_refused_violated`)
* C120: in Python 3 `exc_tb_list` is never shown: its value is a list, its spec `s`; `format` raises and the entry has `{exc_tb_list}` instead, also when an exception was recorded.
* C121: A getter that raises for the only events of an action leaves an empty accumulator, and `QuantileSink.to_dict` and `repr` raise for all actions. (`C121_violated`)
* C122: Events cannot be copied or unpickled: `__getattr__` of the new, empty instance looks up `action` by calling itself. (`C122_violated`)
* C123: The time of a task call that ends the actor thread is missing from `get_stats`, though the call is counted. (`C123_violated`)
* C124: A message that mentions itself (`{event_message}`, or `{end_message}` in the end message) is as long as the stack allows, and with two mentions its length doubles with each reading that fits: `"{event_message}{event_message}"` as a message, or in a name from outside, takes all memory. (`C124_violated`, `C124_once`, `C124_self`)
* C126: After `wrap_all`, a class method inherited by another class in sight is called with the class it was wrapped on, not the class it is called on. (`C126_class_method_violated`)
* C127: `wrap_all` and `unwrap_all` without a target, or with a number of frames, always raise ValueError: `f_globals.__name__` asks a dict for an attribute. (`C127_raises`, `C127_violated`)
* C128: the default message of an exception is used as a template, so an exception whose message has braces (`KeyError('{')`, a JSON text) gives an event whose message raises when read, or shows `{0}` for `{}`. (`C128_violated`)
* C128: the text of an exception's `errno` is put into the `%` template before it is formatted, so an `errno` with a directive in its text (`a%s`) makes recording the exception raise. (`C128_percent_violated`)
* C129: the docstring of DevDebugSink offers iterables of types, but a list given as `reraise` makes `isinstance` raise TypeError for every exception; a type given as `post_mortem` is replaced by Exception. (`C129_violated`, `C129_debugger`)
* C132: interpolating between two equal values can give a different value: in doubles the quantile 0.01 of `[3.0, 3.0]` is
  2.9999999999999996, below the minimum (quantile.py:152-153 rounds both products and the sum).
* C133: after a quiet time `rate += alpha * (new - rate)` with alpha = 1 need not give `new` (ewma.py:41): from 2^54 to 1 the
  rate becomes 0, below every rate observed.
* C135: reading a quantile of a capped reservoir sorts its values in place (quantile.py:121-128), so that the next replacement
  (139) removes another value; reading, or printing, a moving average closes a window (ewma.py:45-56).
* C136: a marker whose height equals an observation is moved up with the ones above it (`val <= point[1]`, p_squared.py:65), in the
  published algorithm it is not (cell `q_k <= x < q_{k+1}`).  After 1, 1, 1, 1, 2 the median is 1 here, 7/6 there.
* C139: a QuantileSink with P2 and points without the quartiles raises ValueError from `to_dict`, for all loggers, once one pair of
  names has `len(points) + 2` events, since the trimean reads points that are not tracked (sinks.py:336-338, quantile.py:189-193,
  p_squared.py:92-96); `repr` does when the median is not tracked (sinks.py:357).
* C141: `wrap_all` with `enable_wrap=False` still stores every function under the name it was read by (utils.py:152-154).  Where `D`
  inherits from `B` and `C`, and only `C` overrides a function of their base, `D` then has the base's; class methods are bound to
  the class first reached; static methods become plain functions.  The same goes for C126 with wrapping enabled.
* C142: with an interval that is not a whole number of milliseconds, eight successes may leave the interval above the base by a
  rounding error (1 + 2^-52 with the default maximum); the ninth brings it back (actors.py:115-117).
* C143: the `repr` of a RateSink (and of a RateAccumulator) raises ZeroDivisionError in the instant of its creation once it has an
  event, and a RateSink's also when the clock was set back before its first event (sinks.py:100-129, 229-234).  The logger hides this:
  its `repr` falls back to the plain one (logger.py:305-310).
* C144: `QuantileSink` does not look at `q_points`: with P2 and a point outside 0 to 1 every event raises ValueError later, and with the
  default accumulators a point such as 1.0, which P2 leaves out, makes `to_dict` raise (sinks.py:324, 336-338, quantile.py:145-146).
* C145: a thread whose stream went stale assigns `self.stream` while others are between their write and their flush, which look it up
  separately: an entry can sit in the buffer of a stream that is not the current one any more. `emit_entry` returns before the entry
  is in the file, and a later entry of the same thread can precede it (three threads, two reopenings).
* C146: `Action.__exit__` notes through the module function `note`, so the handlers of the global context, not of the logger's context,
  are told (action.py:257).  If there is no global context, one without handlers is made and nobody is told.
* C147: `begin`, `warn`, `success` and `failure` update the data map before they ask for the message's text (action.py), so a message whose
  `str` fails leaves the new data behind; and `success`/`failure` on an action not yet begun begin it (and publish that) before failing.
* C148: nothing keeps a sink from ending an action it is just being told the begin of, or from flushing: the sinks after it in the list then
  hear of the end before the begin (logger.py, the loops over `_begin_hooks` and `_end_hooks`).
* C149: A RateSink with a negative `sample_size`, a CounterSink with a `threshold` that is not between 0 and 1 and an EWMASink with a negative `interval` can be made, and then raise ValueError for every event. (`C149_violated`)
* C151: With the point 1/3, as a double a bit less, the first cell of a histogram of three values has a share of less than one value but counts two. (`C151_violated`)
* C156: Every reading of `logger.sinks` is a new list, so a logger that two of its sinks show is shown anew in each: its text doubles for every two frames below the recursion limit. (`C156_linear_violated`)

## Exactly when

Where a claim fails, and it can be said exactly when, a theorem says so for all histories, in place of sufficient conditions only:

* C03, C04: an exception of a block is recorded, and what comes out of a block, by what the hooks of the sinks do (`exception_recorded_exact`, `with_normal_exact`, `with_exception_exact`).
* C05: the action that is active after a block (`active_restored_exact`).
* C07: which status calls and exits take effect, whatever foreign code does (`C07_exact`); C08: what they do to the duration (`duration_exact`); C09: which calls store their keywords (`C09_exact`).
* C11: consecutive guids are out of order only at powers of 16 (`C11_order_exact`).
* C12: which end events are published for an action, if nothing raises (`C12_exact`).
* C15: a call raises what the last sink it called raised, and no sink is called after one that raised (`sink_error_exact`).
* C18: what is delivered and what is lost in any history of modes and flushes (`C18_exact`).
* C26: the bounds of the wait hold iff `interval <= max_interval`; what happens otherwise (`C26_exact`, `C26_reversed_exact`).
* C27, C29: when a thread stays in its loop after `start`, when a thread leaves it (`C27_exact`, `C29_exact`).
* C31: which handlers a note reaches when some raise (`C31_exact`).
* C32: a collection of levels is ordered consistently iff names and values coincide (`C32_exact`).
* C35: which events pass a filter, for every kind of setting (`C35_exact`).
* C39: which texts come back from quoting (`C39_exact`).
* C40: what each read of a message gives (`C40_exact`).
* C43: which entries are read back from a log file, for every separator (`C43_exact`, `C43_file_exact`).
* C44: which events are given a priority (`C44_exact`).
* C49: when a histogram counts a value, when it raises (`C49_exact`).
* C51, C55, C56, C60: what capped reservoirs report, when reading averages raises or changes them, what the rate of any window is, when aggregates are shown (`C51_exact`, `C55_reads_exact`, `C55_stable_exact`, `C56_exact`, `C60_aggregates_exact`).
* C67: how an event is rendered for any set of templates (`C67_exact`).
* C74: when a range of a histogram runs backwards (`C74_exact`).
* C87: when using a formatter raises (`C87_exact`).
* C90: what is in a file from the making of an overwriting emitter on, if those that overwrite are not used (`C90_emptied_partial`).
* C94: the module a logger gets, and when there is none (`C94_exact`).
* C96: which local times are shown alike, and when the offset shown is the right one (`C96_exact`, `C96_offset_exact`).
* C97: which durations take nine columns (`C97_width_exact`).
* C98: which exceptions are recorded with debug sinks about (`C98_exact`).
* C101: which events of dropped loggers are lost (`C101_lost_exact`, `C101_flush_exact`).
* C106: what an interruption leaves active (`C106_block_exact`, `C106_active_either`).
* C107: what the sinks of each process have and get, if forks are quiet and nothing is lost (`C107_exact_partial`).
* C109: when copying the table of loggers raises (`C109_exact`, `C109_needs_change`).
* C119: which calls of a stream emitter raise, and what its stream has (`C119_exact`).
* C80 (`C80_adding_partial`): `add_sink` may run in any number of threads while others publish; a sink that was there from the start is told each event exactly once and in order. Only a sink being added twice at once can be told twice.
* C28 (`C28_users_partial`, `C28_requested_partial`): with any number of user threads, a requested stop ends the loop.
* C129: for which pairs of options the debug sink does what they say (`C129_exact`).
* C85 (`C85_exact`): what a SIGTERM does to the process, case by case.
* C67, C68, C87: which templates are valid, and which messages raise when read, by a grammar of format strings that has nothing of the parser in it (`Spec/Grammar.lean`; `C67_grammar`, `C68_grammar_partial`, `C87_grammar`).
* C62: at any depth, `wrap_all` wraps everything within the depth unless some class is both exactly that many steps away by one way and fewer by another (`C62_complete_partial`); with a depth beyond the number of objects in sight it wraps everything (`C62_deep_partial`).
* C42: `C42_raises_exact` says exactly when an emitter raises. C91: `C91_exact` says exactly which texts come back.
* C47, C48: `C47_exact`, `C48_exact` say exactly for which histories the lists are right after every `add`.
* C102: whatever threads do with a shared action, no end event is published whose status nobody asked for, publications never go back
  to an older begin or end event, and once all calls have returned the events published last are the ones the action shows
  (`C102_asked_partial`, `C102_last_partial`).
* C55: `C55_formula` gives the rate of every period after any uses: the moving average of the rates of all windows closed so far.
* C73: `C73_bounds` says where every cell of a histogram begins and ends, and what its ratio is.
* C84: `C84_delivered` says which events the sinks get at the end of a process that enabled async mode.
* C98: `C98_reraise_true` says which exceptions are recorded as the end of a block while a debug sink with `reraise=True` is registered.
* C156: `C156_length` gives the length of the text of a logger that its own sinks show.
