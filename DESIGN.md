# Formal model of xsmp-sdk in Lean 4

## 1. What this is

`/verif/lean/Verif` contains an executable model of the semantic core of
xsmp-sdk (commit pinned in `/repo`), written function by function from the C++
sources, and theorems about it for the properties of `properties.jsonl`.
Every definition of the model has a comment with the file and lines it models
and, where it simplifies, what was left out.

Layout: one directory per subsystem.

* Model files (`Model.lean`, and files named after what they model, e.g.
  `Log/Queue.lean`) contain definitions only.
* `*Lemmas.lean`, `*Inv.lean` contain helper lemmas and invariants.
* `*Props.lean` contain the property theorems, the small specifications they
  refer to, and next to the theorems `example`s showing that their hypotheses
  can be met. The small subsystems have model and properties in one file; the
  theorems of a property are always named after it (`C15_...`).

Shared data structures (`std::map`, `std::set` as sorted lists) are in
`Verif/Base`.

## 2. Trusted base

* Lean's kernel (4.33.0) and the three standard axioms `propext`,
  `Classical.choice`, `Quot.sound`. No other axiom, no `sorry`, no
  `native_decide`, no `bv_decide`. `AXIOMS.md` lists, for each theorem of
  `MANIFEST.json`, the axioms printed by `#print axioms`.
* The correspondence between the C++ text and the Lean definitions (checked by
  reading; the code was not built or run).
* Semantics of the C++ standard library as described by the standard:
  `std::map`/`std::set` are sorted sequences without duplicates, node-based
  containers keep other iterators valid on insert/erase, mutexes exclude.
* ECSS SMP headers (`Smp/*.h`) are not in the repository; their interface
  hierarchy is taken from the SMP standard (ECSS-E-ST-40-07).
* Integers are 64-bit two's complement, `size_t` is 64 bits little endian where
  the persisted bytes are concerned, `char` has 8 bits, and the "C" locale is
  in use.

Undefined behaviour is never assumed away: it is an explicit outcome (`fault`,
`ub` or `none`) of the model, together with escaping exceptions.

## 3. When a property is false of the code

The property list states what a user relies on. Where the code does not
provide it, the development contains

* a theorem whose name contains `_fails`, exhibiting a concrete
  history of the model violating the claim, and
* a theorem with suffix `_partial` proving what does hold, for all histories
  that avoid the defect, with the excluded calls stated in its hypotheses.

`MANIFEST.json` marks such properties `partial`. All properties marked
`partial` are false of the code as stated; their negation is proved.
(C75 is refuted by `C10_livelock_fails`, C25 by `C26_fails_init`.)

## 4. Per property: what is modelled, how it is proved, result

| id | property | modelled in | proof | status | result |
|----|----|----|----|----|----|
| C01 | Events execute exactly at their due time | Sched/Model | invariant over input lists; log of executed callbacks | partial | Holds along every execution avoiding the defective calls. Excluded are the calls listed at Op.ok, each shown to be a defect in Sched/Defects.lean. |
| C02 | A repeating event fires at t, t+c, ..., t+r*c and nowhere else | Sched/Model, Sched/Track, Sched/Called | one event followed along an arbitrary execution | partial | Full firing pattern for any history of other events, holds and resumptions; occurrences are skipped exactly if overtaken. Excluded are the calls listed at Op.ok, each shown to be a defect in Sched/Defects.lean. |
| C03 | Simulation time never goes back and never skips a due event | Sched/Model | invariant | partial | Monotonicity holds in every state. No-skip: Excluded are the calls listed at Op.ok, each shown to be a defect in Sched/Defects.lean. |
| C04 | Same-time events run in posting order; immediate events run first | Sched/Model, Sched/Order | invariant on pairs of events | partial | Immediate-first holds for every execution whose immediate events are posted by the simulation thread. Order: Excluded are the calls listed at Op.ok, each shown to be a defect in Sched/Defects.lean. |
| C05 | Event identifiers are never reused | Sched/Model | invariant over returned identifiers | proved |  |
| C06 | Hold/resume neither loses nor duplicates events | Sched/Model, Sched/Inv | invariant: one place per event | partial | Excluded are the calls listed at Op.ok, each shown to be a defect in Sched/Defects.lean. |
| C07 | A rejected scheduler call changes nothing | Sched/Model | case analysis of all calls | proved | Every state component is unchanged. |
| C08 | A removed event never executes again | Sched/Model | invariant | partial | Excluded are the calls listed at Op.ok, each shown to be a defect in Sched/Defects.lean. |
| C09 | Rescheduling moves exactly that event | Sched/Model | invariant | partial | Excluded are the calls listed at Op.ok, each shown to be a defect in Sched/Defects.lean. |
| C10 | Every repeating event has a positive cycle time | Sched/Model | invariant; livelock shown for every number of rounds | partial | SetEventCycleTime accepts non-positive values for endless events. |
| C11 | Next-scheduled-event time is the minimum pending due time | Sched/Model, Sched/Extra | invariant | partial | Excluded are the calls listed at Op.ok, each shown to be a defect in Sched/Defects.lean. |
| C12 | No scheduler history reaches undefined behaviour | Sched/Model | invariant: only a 64-bit overflow can stop the loop | partial | Excluded are the calls listed at Op.ok, each shown to be a defect in Sched/Defects.lean. Overflow is excluded too. |
| C13 | Zulu-time events are independent from simulation-time events | Sched/ZuluInd | simulation relation between two executions | partial | Excluded are the calls listed at Op.ok, each shown to be a defect in Sched/Defects.lean. |
| C14 | Run(duration) returns held no later than now+duration and leaves nothing behind | Sched/RunFor (Simulator::Run, Hold on top of the scheduler) | invariant | partial | Time bound and hold for all histories without SetSimulationTime; an interrupted Run(d) leaves its event behind (C14_fails) |
| C15 | Scheduler breakpoint round-trip | Sched/Persist (Store/Restore of scheduler and time keeper on the persist codec) | round trip | partial | Events, due times, immediate events and last id round-trip for every state; the Zulu table is neither stored nor restored (C15_fails). |
| C16 | Event names and event ids are in bijection | Event/Model | invariant | proved | For every sequence of calls. Across a restored breakpoint ids are those of the breakpoint, so an id given after it was stored can be given to another name (C16_restore_fails). |
| C17 | Emit runs each subscriber once, in subscription order, from a snapshot | Event/Model: stack of emissions, calls at every step | invariant | proved | Re-entrant calls modelled by a stack of emissions. |
| C18 | Rejected event-manager calls change nothing and are rejected exactly when they should be | Event/Model | decision logic against the history of calls | proved |  |
| C19 | An id obtained from QueryEventId is immediately usable in every thread | Event/Model: one step per lock region, any number of threads | invariant over interleavings | partial | Uniqueness holds in every interleaving; the id is not usable between the two critical sections of its creator. |
| C20 | Epoch and mission time are affine images of simulation time | Sched/TimeProps | algebra | proved | Time keeper arithmetic for every reachable state |
| C21 | Only the scheduler's announced step can move simulation time | Sched/TimeProps | invariant | partial | SetSimulationTime window; a hold inside the window leaves it open, shown by C21_fails |
| C22 | Link count equals additions minus removals | Link/Model | refinement to counters | partial | Exact for histories with fewer than 2^32 additions of one link; modulo 2^32 for every history (C22_modular) |
| C23 | Link sources of a target are exactly the components with a positive count | Link/Model | refinement | partial | Distinct component names; sources with the same name break it |
| C24 | CanRemove / RemoveLinks protocol | Link/Model | refinement | partial | Sources that call RemoveLink while asked are skipped |
| C25 | The simulator only makes legal state transitions | Sim/Model: micro-programs with a stack, calls at every step | invariant | partial | All histories with nested calls to any depth; wrong-state calls have no effect. Missing: Abort called in the middle of a transition (C26_fails). |
| C26 | Aborting and Exiting are final | Sim/Model | invariant | partial | False of the code: Abort during a transition (by a subscriber or an initialisation entry point) is undone by the transition. |
| C27 | Global enter/leave events are properly bracketed | Sim/Model | invariant on the trace | partial | All histories without Abort. False: Reconnecting is left without event, EnterAborting is emitted before the change. |
| C28 | Connect publishes, configures and connects every component exactly once, parents first | Sim/Walk | structural induction on component trees | proved | All trees, with components created by hooks on the way; hooks that raise. Hooks that change containers of other components are in C104. |
| C29 | Initialisation entry points run exactly once, in order | Sim/Model | invariant | partial | Proved for histories without exceptions; an exception loses the entry points behind it. |
| C30 | A breakpoint restores the state of every component | Sim/Breakpoint | structural induction, codec | partial | False of the code: nothing inside containers is stored or restored. |
| C31 | Component life cycle is linear | Tree/Life | invariant | partial | Linear order proved for all call sequences. False of the code: DoConfigure is executed twice (ComponentHelper.h:53,58), Disconnect runs the hook before checking the state. Hooks are atomic here; hooks that call the operations of their own component are in C105. |
| C32 | Container multiplicity is always respected | Tree/Model | invariant | partial | Bounds, parents, types, exact exceptions and no-change proved. False for a published composite: every AddComponent raises InvalidFieldName or DuplicateName (Container.cpp:110 + Publication.cpp:227). |
| C33 | Sibling names are unique | Tree/Model | invariant | proved | For containers registered with their composite (Container constructed with a Composite parent). |
| C34 | Reference multiplicity is respected | Tree/Model | refinement | proved | A negative lower bound converts to a huge size_t, so nothing can be removed: covered by toSize in the exact conditions. |
| C35 | Collections behave as insertion-ordered name maps | Tree/Model | refinement | proved | Owning, non-owning and delegating collections. |
| C36 | Published field names are unique | Tree/Model | invariant | partial | False: PublishField(IField*) then PublishField(name, address) of the same name is accepted. |
| C37 | Event source notifies each subscribed sink exactly once | Tree/Emit: stack of emissions | invariant | partial | Exactly-once proved for every history, including subscriptions, unsubscriptions and nested emissions during the emission. False (undefined behaviour) when a sink unsubscribes itself while notified. |
| C38 | Factories are unique per UUID and creation uses the right one | Tree/Model | refinement | proved | Factories identified by address; CreateInstance modelled as the factory chosen and the name passed. |
| C39 | Resolving an object's path gives back the object | Path/Model | structural induction on trees and strings | partial | Round trip and injectivity for all trees and all objects that are not containers, references, operation parameters or below an anonymous array; for those the paths do not resolve (fails theorems). Null for all paths that name nothing, with '..' and failures, but for the one segment that is dropped at a field known as an object only (after a failure's name, at the start, after '..'); exact without '..' and failures. |
| C40 | Path normalisation | Path/Model | induction on strings | partial | All normalisations hold for all strings; '..' goes to the parent and the rest is resolved from there. Not full: when '..' leads to an enclosing field the next segment is dropped (C40_fails). |
| C41 | Object names are accepted iff they match the SMP grammar | Path/Model | equivalence with a grammar | proved | All strings and null; character classes of the C locale. |
| C42 | Persisted values restore to themselves | Persist/Model | round trip by induction over types | proved | By induction on the type, for byte strings; wide strings are C44. Unordered containers: any iteration order. |
| C43 | A persisted stream with another type is detected | Persist/Model | decision logic | proved | For types with different hashes; hash collisions of typeid are outside. |
| C44 | Wide strings persist completely | Persist/Model | round trip / negation | partial | False of the code: only size() bytes of the data are stored. C44_fails shows it for every character width above one; C44_partial says what holds. |
| C45 | Fixed-size strings never exceed their capacity | Text/FixedString | invariant | partial | every operation sequence, including parts of the string itself as arguments, except that remove_prefix with more than size() is undefined (C45_fails), and so is the assignment of an overlapping part of the string itself (C45_overlap_fails) |
| C46 | CopyString never writes out of bounds and always terminates | Text/FixedString | memory bounds | proved | destination with size+1 bytes, as every caller provides; C46_tight shows size bytes would not do |
| C47 | Duration and date-time algebra | Chrono/Model | integer arithmetic | partial | all 64-bit values; the conversion of a date-time above 2^63-1-offset to a time point overflows (C47_fails) |
| C48 | UUID text form round-trips | Uuid/Model | round trip | proved | all 2^128 UUIDs and all strings |
| C49 | UUID order is a strict total order compatible with equality | Uuid/Model | order axioms | proved | bytes compared in order; the hash is a function of the bytes |
| C50 | AnySimple integer conversions preserve the value or throw | Any/Model | case analysis over kinds, all values | proved | all integer types and kinds, both directions; exception exactly when out of range |
| C51 | AnySimple equality is an equivalence | Any/Model | case analysis | partial | equivalence proved for integers, characters and strings; None, Bool, floating point break symmetry, reflexivity and transitivity (C51_fails) |
| C52 | A failed AnySimple assignment leaves the old value | Any/Model | case analysis | partial | a string is released before the check and lost (C52_fails) |
| C53 | Type registry keeps one type per UUID and stays closed | Pub/Types | invariant | partial | Uniqueness, stability and no effect of failed calls hold for every history. Arrays, enumerations and class bases refer to registered types; field types of structures are not checked by the code (C53_fails, C53_expand_fails give an unregistered and a self-containing structure), so closure and following of references are proved when fields name earlier types. |
| C54 | Request parameters are stored independently | Pub/Request, Pub/Oper | induction on parameter lists | proved | C54: requests created by a published operation, no side condition. C54_names: nested arrays/structures flatten to distinct names. The other theorems are on requests with distinct names. |
| C55 | Request values respect the parameter type | Pub/Request | invariant | partial | Proved for types with non-negative string length and for values other than NaN; C55_fails shows that NaN is accepted by every float range and that a negative string length accepts everything. |
| C56 | Dynamic invocation reaches the operation only with a matching request | Pub/Oper | decision logic | proved | For any IRequest, and more precisely for the requests the operation creates. |
| C57 | A forced field keeps its value | Field/Net | invariant | partial | Proved: between Force/Freeze and Unforce no history of assignments, pushes, connections and SetValue changes the value; Force that returns sets the value (no cyclic data flow). Missing: a failing Force leaves the field unforced (C57_fails shows it). |
| C58 | Data flow: connected inputs follow the output | Field/Net, Field/Arrays, Field/Tree | induction on data-flow graphs and trees | partial | Proved for simple fields on acyclic graphs when the value fits the fields reached, for element writes of arrays of simple items, and leaf by leaf for structures. False in the code (negations proved): Connect that raises while pushing stays connected, strings are cut, arrays of different item kinds are equivalent, SetValue on an array does not push, a cycle recurses forever. |
| C59 | Array fields reject bad indexes and are updated atomically | Field/Arrays | case analysis, induction | partial | Proved except atomicity of SetValues: a refused element leaves the preceding ones replaced (C59_setAll_partial says exactly what changes, C59_fails is the witness). |
| C60 | Enumeration fields only hold declared literals | Field/Net, Field/Arrays | invariant | partial | Proved for published simple fields of enumerations of four bytes; false for enumerations of another size, for published arrays and for fields not published through the publication (negations proved). |
| C61 | No log entry is lost, duplicated or reordered | Log/Queue: any number of threads | invariant over interleavings | proved | Every interleaving of any number of logging threads, the worker and the destructor: entries reach the appenders in acceptance order, without loss or repetition, and when the destructor returns all accepted entries have been delivered. Mutex and condition variable are modelled by their contracts. |
| C62 | Log message kinds are stable and distinct | Log/Kinds | invariant | proved | Proved for every history of queries up to 2^32 different names (the kind is 32 bits wide; C62_wraps shows the bound is exact). Beyond the stated property: kinds queried after a store change meaning after a restore (C62_restore_fails). |
| C63 | Logger configuration text helpers are total | Log/Text | induction on strings | partial | unescape, trim and split: proved for every string. Pattern parsing is false for a pattern ending in a lone % or with an unclosed brace: the code reads past the end of the string (C63_pattern_fails); C63_pattern_partial characterises exactly the patterns it parses safely. |
| C64 | A model is failed iff one of its failures is failed | Fallible/Model | invariant | proved | Every history of constructions, Fail, Unfail and restores. |
| C65 | An entry point that throws aborts the simulation instead of propagating | Safe/Model | induction on the call depth | partial | False when a subscriber of SMP_EnterAborting raises: Abort then calls itself without end (C65_fails, C65_abort_diverges). Proved when the subscribers of SMP_EnterAborting do not raise. |
| C66 | Simulation-time and Zulu-time callbacks never deadlock | Sched/Locks | all interleavings of two threads | partial | Exact characterisation of the reachable deadlock of _eventsMutex and _execMutex |
| C67 | Posting events from another thread is safe | Sched/Post: split-step AddEvent | refinement; counter-examples | partial | Refinement of the atomic machine when insertions are timely; three interleavings that break the claim |
| C68 | Fixed-size strings compare by content | Text/FixedString | order of strings | proved |  |
| C69 | Integers become floating point exactly or not at all | Any/Model | arithmetic | partial | upper half of the positive range excluded: rounding up to the bound makes the check itself undefined (C69_fails) |
| C70 | AnySimple owns its string | Any/Own | ownership invariant | partial | all histories except passing an AnySimple its own string, which is read after deletion (C70_fails) |
| C71 | A truncated state file is detected | Persist/Model | prefixes of encodings | proved | Any type, value and cut. |
| C72 | Reconnect connects every new component below and at its root | Sim/Walk | structural induction | partial | False for the root itself, which gets no call. |
| C73 | Stored fields are restored exactly | Field/Persist | round trip | proved | Field trees of any structure. |
| C74 | Scheduler calls are rejected exactly in the documented cases | Sched/Accept | decision logic | proved | Every result of every scheduling call in every state, provided the values computed fit in 64 bits; effects of accepted calls. |
| C75 | The scheduler loop makes progress | Sched/Progress | termination measure | partial | Loops over states reached without the calls excluded by Op.ok; a zero cycle makes the claim false (C10_livelock_fails). |
| C76 | A structured argument put in a request is read back unchanged | Pub/Marshal | round trip by induction on field trees | proved | For operations whose parameters and structure fields have different valid names. |
| C77 | A cstring is a string value that owns its memory | CString/Model | ownership invariant | partial | Copying from a moved-from cstring, and assigning a cstring its own c_str(), are undefined behaviour (C77_fails: every such program); all other programs are proved. |
| C78 | A Zulu event is executed at its Zulu times, r+1 times | Sched/ZuluRun | small-step machine of the thread with a clock; invariant, tracking of one event | partial | False of the code when an event already taken out of the table is moved (C78_early_fails: it is called before its new time). Proved for all histories where an event is only moved while it waits in the table, only removed while it waits or runs, and a repeating event keeps a positive period; C78_due also asks that no event is posted earlier than the time the thread waits for (see C79), C78_order that the posted time does not pass during the call. |
| C79 | The Zulu thread does not sleep past the time of an event | Sched/ZuluRun | invariant on the time limit of the wait; decreasing rank; witness | partial | False of the code: wait_for keeps its time limit after a notification, so an event posted for an earlier time is executed late (C79_fails). Proved when no event is posted, while the thread waits, earlier than the time it waits for; progress is proved for every state in which the thread does not sleep (overflow of a time excepted). A repeated event keeps a positive period (C79_periods_partial), but not one repeated for ever: with its period set to 0 the thread never comes to rest (C79_period_fails). |
| C80 | Calls on Zulu events do not kill the Zulu thread | Sched/ZuluRun | explicit faults; invariant; witnesses | partial | False of the code: removing an event due at the same time, or moving the running event, ends the program or is undefined behaviour. Proved for all histories without these calls, overflow of a number excepted. |
| C81 | Disconnecting the scheduler ends the Zulu thread | Sched/ZuluRun | decreasing rank; no lost notification | proved | The join of the thread by itself (DoDisconnect called from a Zulu entry point) is in C114. |
| C82 | A double becomes a float without loss or not at all | Any/Model, Mem/Float.lean | The two IEEE formats and rounding to nearest, ties to even, are modelled over the rational numbers (Mem/Float.lean) and characterised by a separate description of the numbers of each format. Theorems: which doubles are accepted and what they become; nothing is lost from magnitude 2 on; negation for smaller ones. | partial | accepted exactly when the nearest float is within 2^-52 of the double (rounding of binary64 to binary32 modelled and characterised); that tolerance is absolute, so doubles below 2 in magnitude can lose digits or become 0 (C82_lost); from 2 on nothing is lost (C82_large) |
| C83 | Published fields are at the addresses of the parts of the variable | Mem/Layout | `Create` modelled with a depth bound; the parts of a type are defined inductively apart from it (`Part`, `Annotated`, `Publishable`); induction over paths and over the structure of types. | proved | The registered sizes and offsets are assumed right (Sized) for C83_inside and C83_disjoint; they come from sizeof and offsetof in generated code. Fields of the base class of a class type are not published by this code. |
| C84 | Publishing a variable ends | Mem/Layout | Induction over a rank of the types; false for structures that contain themselves, shown for every depth. | partial | False of the code for structures that contain themselves (C84_fails); proved for all registries without such structures. |
| C85 | A published field reads back what was written, and writing it changes nothing else | Mem/Access | Memory as a function from addresses to bytes; encodings as little-endian two's complement and IEEE 754 numbers; round trip per kind, then framing by C83. | proved | String lengths are assumed not negative where needed; AddStringType accepts negative ones, and then every SetValue is undefined (C85_length_fails). |
| C86 | Restoring a published variable gives back the stored state, at whatever address | Mem/Access | Store and Restore over the published tree; the bytes covered are those of the parts kept (`Kept`); a shift lemma relates two addresses. | proved | String lengths and sizes assumed right. |
| C87 | RemoveLinks of a component disconnects its fields from the target | Field/RemoveLinks | The loop with indexes as in the code, on the fields of Field/Tree; the inputs of all the fields are shown to be those of a list of connections, on which the effect of the loop is a simple recursion (`prune`). | partial | Proved: only connections into the target are removed; all of them when no field has two successive ones into the target; at least half of them always. False in general: the second of two successive connections is skipped, items of a dataflow array or structure connected on their own and published outputs are never looked at. |
| C88 | Connect and Push of published outputs | Field/Published | `Push` on trees of fields shown equal to copying the list of pairs of corresponding leaves; induction over the list. | partial | Proved, also for forced leaves (which keep their value) and for inputs that push further without cycles, when no field is written twice, no source is written and all fields reached accept the value. False when a leaf refuses its value: the target stays connected and part of it is written. |
| C89 | Libraries are finalised if and only if LoadLibrary returned | Sim/Library | Libraries as finite trees of the calls they make; mutual induction on the tree for the list held and the events observed; induction on the list for the loop of the destructor. A library that loads another one in Finalise is shown to break it. | partial | Proved for libraries whose Finalise loads no library and does not raise. False otherwise: the library loaded is removed without Finalise and the other one is finalised again without end, or the name is read through a dangling reference (C89_fails); a Finalise that raises ends the program, and exactly which libraries were finalised is proved (C89_raise_fails); an exception in the Exit made by the destructor ends it before any (C89_exit_fails). |
| C90 | Standard services are the first ones added | Sim/Service | The containers of Tree/Model with the six pointers beside; invariant by induction on the calls. Deleting a service through its container is shown to leave a dangling pointer. | partial | First-added and acceptance proved for all calls; lookup by name and existence of the standard services proved when no component is deleted. False after DeleteComponent: the pointer is not reset (C90_fails). |
| C91 | The printed text of a simple value tells its kind and value | Any/Print | A reader of the texts is the specification; round trip for None, Char8, Bool and the integers. Texts of floating point numbers and times are parameters (external). Kinds that are printed alike, negative characters and streams in another base are shown to break the claim. | partial | Proved for None, Char8, Bool and integers on a stream in base ten, strings among themselves, and the seven enumerations. False: durations, dates and strings share texts (C91_kinds_fails); a negative Char8 is no character literal (C91_char_fails); a stream in base sixteen (C91_hex_fails). Texts of floating point numbers and times are parameters. |
| C92 | Properties of a generated component reach their field | Gen/Model | The handlers found in a chain of classes are those of the most derived definition; frame law for the write; induction over histories. A null string is read back as the empty one. | partial | Publication, reading, writing, histories over several components and direct requests for every chain of generated classes. Partial: a null string is accepted and read back as the empty string (C92_fails). |
| C93 | Calls of the time keeper from several threads act one after the other | Conc/Lock, Conc/TimeKeeper | Invariant over all interleavings of threads that take reader-writer locks in two phases: the data are those of the sequence of effects up to the pending assignments of the exclusive holders. Deadlock freedom from the order of the locks and a decreasing count of steps; witnesses where the order is not respected. | partial | Linearizability of the single expressions is proved for every interleaving and order of evaluation. Absence of deadlock holds from left to right without Store and Restore and fails otherwise. SetSimulationTime checks and assigns in two steps, so that two threads can make the time go back. |
| C94 | Links added and removed by several threads are counted and listed as one after the other | Link/Threads | Calls cut where they give back their locks; simulation with the sequential registry in which the sources of removals under way are hidden; a witness for an addition in the middle of a removal. | partial | Counts and results of RemoveLink are those of the calls one after the other for every interleaving; sources too if no AddLink of a pair is made in the middle of its RemoveLink, and not otherwise. |
| C95 | A simulation continued from a breakpoint goes on as the one that stored it | Sched/Continue | The bytes of C15 followed by a simulation between the two run loops: equal states but for the older observations and the iterator while it is not in use, kept by every call and every step. | partial | Proved for breakpoints without pending Zulu events and without a change of the simulation time left open; C95_fails shows that a hold during PreSimTimeChange makes the continuations differ, C15_fails that pending Zulu events are lost. |
| C96 | The argument of an event reaches every subscribed sink unchanged | Emit/Model | Round trip of each C++ type through AnySimple of its kind, with the conversion lemmas of C50 and the copy of C46; induction over the list of sinks. | proved | C96_fails: only kinds are compared by Subscribe, so a sink of a narrower C++ type can stop an emission; an unterminated character array is read past its end. |
| C97 | Scheduled entry points are called while the simulation is executing, and not after Hold | Sim/Loop | Per-thread stacks of operations and loops; an invariant of the stack of one thread (executing while an unheld loop is on it); for any threads a potential bounds the calls after the hold; counter-examples for the excluded calls. | partial | One thread, without Abort, without Run in a run loop, without Hold in a subscriber of EnterExecuting that runs before the scheduler's or in one of PostSimTimeChange: calls only in Executing and none between the hold and the next Run. Any threads, any calls: after the hold at most one call per run loop in progress. C97_fails: each excluded call, and a hold from another thread, breaks the full statement. |
| C98 | The event manager used by several threads behaves as if its calls came one after the other | Event/Threads | Numbered calls on per-thread stacks with a log of what happens; refinement of the log to a replay of subscriptions; an invariant giving the part of each call's whole trace already seen; counter-examples for execution after Unsubscribe and for ids not registered yet. | partial | Proved for all interleavings: one order of the locked parts, the course of each call, uniqueness of ids, accepted ids were given before. False of the code in two respects: an emission that has copied its subscribers executes an entry point after its Unsubscribe has returned (an emission that copies later does not), and an id is rejected while the first QueryEventId that was given it has not returned (accepted afterwards). |
| C99 | InvalidAnyType of an AnySimple names the kind expected and the kind that was given | Any/Report | The functions of Any/Model with the data of the exception; a theorem that they are the same functions; case analysis over the conversion tables; counter-examples for the swapped branches. | partial | The two kinds are always the right pair; in the right order when writing a kind that never fits or reading a kind that fits with a value that does not, swapped otherwise (C99_write_fails, C99_read_fails, C99_notify_fails). |
| C100 | Exceptions of requests and operations say what happened | Pub/Report | The functions of Pub/Request, Pub/Oper and Pub/Marshal with the data of the exceptions; a theorem that they raise the same exceptions; the invariant of C54 gives the name of the parameter; counter-examples for the properties and InvalidAnyType. | partial | True of all exceptions of requests of operations but InvalidAnyType, and of all of Operation::Invoke; requests of properties report the property as operation and a setter 0 parameters; a missing parameter gives an exception without message, named after the parameter. |
| C101 | The configuration file of the logger says what is written where | Log/Config | Parsing by a characterisation of the lines that say a key (no bound on the text); the appenders by induction on the list of names; the output by an invariant on the calls of appenders in every run of the queue model of C61, composed with the text model of C63; the null layout and the shared file are counter-examples. | partial | Parsing and the making of appenders are proved for every file. The output is proved when every appender has a layout and no two appenders share a file; a layout name that does not exist leaves a null pointer which the first accepted entry dereferences (C101_layout_fails), two appenders on one file overwrite each other (C101_sameFile_fails). |
| C102 | The counters of the example count what happens to them | Example/Model | The counters by induction over the calls against a specification of what is assigned and added; the sum by induction over the counters, with the overflow of Int32 as an outcome and a counter-example where the sum fits but its parts do not; the schedule by an invariant over the composed steps (the counter counts the calls of its entry point in the log of the scheduler) and the theorem C02 on the occurrences of an event. | partial | Proved for all calls and runs while no addition overflows; an overflow of Int32 is the undefined outcome, characterised exactly for the counters (C102_overflow) and the sum (C102_sum_partial), with a case where the sum itself would fit (C102_sum_fails). The schedule is for runs of the scheduler without the calls excluded by Op.ok, as for C02. |
| C103 | Strings and arrays compare, hash and concatenate by their contents | Text/Ops | Every overload is related to the comparison of contents, whose sign is characterised by induction over the bytes; the lexicographic order of a strict total order is one; arrays by induction over the items, with nesting as closure; arrays with a NaN are a counter-example. | partial | Proved for strings. The operators of arrays are for items whose operators are those of a strict total order; with a NaN the claim is false (C103_nan_fails). |
| C104 | A visit of the component tree is safe and complete when hooks change containers | Sim/Dynamic | The nested loops as an explicit stack with a step function; an invariant over all steps relates the log, the stack and the containers (what has begun, what remains, who came late); at the end the stack is empty and the invariant gives both inclusions. Two counter-examples: a late model stays created, a deletion behind the index makes the loop use a null pointer. | partial | False in full: a component added by a hook to a container being visited is never visited (C104_added_fails); a hook that deletes an earlier component of a container being visited makes the loop use a null pointer (C104_removed_fails). Proved for all additions and for deletions from containers not reached yet. |
| C105 | The hooks of a component's classes are executed once, whatever they call | Tree/Hooks | Mutual induction over the tree of calls: what is added to the log is a path of the state machine and pays for every execution of a hook; the plan of one call by induction over the classes. Counter-examples: Configure twice and in a connected component, an inherited hook twice, Disconnect hooks in any state, hooks lost behind one that raises. | partial | Proved for every tree of nested calls. Each-hook-once is false: DoConfigure is executed twice (the second time possibly in a connected component), a hook that a class inherits is executed again for it, hooks of Disconnect are executed in any state, and hooks behind one that raises are lost. |
| C106 | The annotations of a field reach the fields inside it | Field/Annot | Induction over the type, with the relation between the annotation list and the declarations passed on the way; Connect through C58. | partial | Forcible and rejected declarations are characterised for all types. The flags of all parts are characterised; structures cut input and output (C106_input_fails), and every Connect of an output with a structure inside a structure raises (C106_nested_fails). Outputs without nested structures connect all their parts. |
| C107 | Writing fields with operators, references and iterators | Field/Ops | Congruences modulo 2^width for the operators; bits through setWidth; invariant index = position over movements; induction over the copied values with C58. | partial | Partial: the statement is false for *= of small unsigned types, / and % with mixed signs, and fill (the three _fails theorems). Operators with floating point numbers: see C135; copies of strings and to arrays of other kinds are not covered. |
| C108 | Nothing refers to a component that was removed | Tree/Gone | Invariant over the actions: every pointer has a registered link and a target that exists; the removal is followed through the bottom-up calls; counterexamples for the shorter protocols. | partial | Proved for careful programs (registered links, bottom-up RemoveLinks, own links dropped, at most one input of a component per output); the plain protocol is refuted by the four _fails theorems. Pointers held by the scheduler and event manager are not in this model. |
| C109 | Comparisons of durations compare times | Chrono/Compare | Conversion ranges per type; truncated division bounded by one unit; exact multiples through C47's check. | partial | Holds except for UInt64 operands with negative durations, differences below a nanosecond, nanoseconds outside 64 bits, NaN, literals from 2^63 (refuted by the _fails theorems). Floating point operands: see C134. |
| C110 | The logger used by several threads behaves as if its calls came one after the other | Log/Threads | Invariant over all interleavings: owner of the mutex, order of the events of each thread, entries; linearisation at the last access to the table; a measure for the end of the calls. | partial | Every interleaving. One after the other: proved unless a Restore takes effect while a query adds a name (C110_restore_fails). Times of one entry: proved unless the simulation time advances meanwhile (C110_moment_fails). |
| C111 | Exceptions of containers, references, services and types say what happened | Raise/Objects | Case analysis of each call against the models of C32, C34, C21 and others; bounds of reachable containers and references for the limits. | partial | False of the code as stated: AddComponent(nullptr) (C111_null_fails), times of mission and epoch events (C111_event_time_fails), kind of an enumeration of an impossible size (C111_enumeration_fails). The rest is proved. Texts of the messages and lifetimes of the senders are not modelled. |
| C112 | Exceptions of fields say which index, size or value was refused | Raise/Values | Agreement with the models of fields and arrays by cases on the kinds; induction over the list of values for the first one refused. | partial | False of the code as stated: indexes from 2^63 (C112_index_fails), the class of the exception (C112_class_fails), null strings (C112_null_fails), the order of the kinds (C112_kinds_fails). Exceptions of the fields a field pushes to: see C153. |
| C113 | Loading a package registers what it provides, once | Sim/Packages | Invariant over the operations of the program: the sets hold living simulators only, each reached from a library it has loaded by packages that hold it too, and for a simulator that has seen no destruction they tell what is registered; mutual induction over the tree of packages for Initialise and Finalise. | partial | Proved for programs that initialise packages by LoadLibrary only, in a state in which services may be added, and not with a simulator that has seen another one destroyed; that each of these conditions is needed is shown by the _fails theorems. Unconditional: nothing is registered twice, a load repeated at once changes nothing, and the result of Initialise. |
| C114 | A simulator can be destroyed while the Zulu thread of its scheduler runs | Sim/Ending | Transition system of the owner and the Zulu thread; invariant over all interleavings (what is joined, what is alive, what runs), witnesses for the cases that go wrong. | partial | Proved for every interleaving when the simulator is destroyed in Standby or Executing, or when no Zulu entry point runs then and the scheduler is deleted before the time keeper; and without aborts in every case. False otherwise: after Abort the thread is not waited for before components are deleted; an Exit from a Zulu entry point ends the program later. |
| C115 | Date-times and durations are read back from their text | Chrono/Text | The date library as a parameter (printing and reading functions with what a failure leaves); round trip under the hypothesis that the library reads back what it prints; exact ranges by the arithmetic of C47. | partial | Proved for every library that reads back what it prints. Missing: date-times after 2262-04-11 (undefined); texts that cannot be parsed are not refused. The date library itself is a parameter. |
| C116 | A breakpoint that was stored is on the disk, and one that is not is noticed | Sim/Writer | The output stream as a buffer whose writes are chosen freely, on a device of limited size; induction over the blocks. Cut off files: restoring is unchanged by bytes that follow, and the whole file is used up (C30). | partial | Proved with room on the device; without, at most the contents of the buffer are lost silently, and such a file is refused by Restore. False: full devices, the old breakpoint after an exception, the events at the end of Store. |
| C117 | Indexing from Python means what it means for a Python list | Python/Index | Refinement to the indexing of a Python list, written separately; machine integers as integers with wrap-around. The failure on negative indexes is proved for every sequence and every negative index. | partial | Indexes that are not negative, names, iteration, deletion and assignment proved; negative indexes are always refused (C117_negative_fails), del of a doubly referenced component removes another position (C117_delete_reference_fails). |
| C118 | A value passed between Python and a field is the same value or an exception | Python/Value | Both functions convert case by case over the model of AnySimple (C50); round trips for every integer, text (UTF-8 of Lean's library, proved inverse there) and number; negations by witness. | partial | Proved for every integer kind and integer, for truth values, characters, texts without U+0000 and Float64. False of the code, with witnesses: texts with U+0000 are cut (ecss_smp.cpp:505), Float32 rounds silently (ecss_smp.cpp:529), texts that are not UTF-8 cannot be read, a character in a condition raises. The casts of pybind11 are modelled from its source, which is not in the repository. |
| C119 | A call of an operation from Python binds its arguments and returns its outputs as a Python function does | Python/Call (over Pub/Oper, Pub/Request and Python/Value) | The binding of Python as a separate specification (Given, Fit); induction over the two loops; reachable operations by the invariant of publications (C56). | partial | Binding, errors and results are proved in full for every reachable operation. False of the code: parameters named by a reserved word cannot be given by keyword under their Python name, and async/await are missing from the reserved words (ecss_smp.cpp:546-551). |
| C120 | Run from Python executes for the duration that its arguments add up to | Python/Run (over Mem/Float and Sim/Loop) | Error bound of one rounding from the model of IEEE 754, carried through the seven additions; whole numbers stay exact; invariant of one thread: the last global event is set only while an operation is on the stack. | partial | Exact for whole amounts up to 2^53 ns; error bound for amounts that are not negative. False of the code: truncation instead of rounding (C120_nearest_fails), undefined conversion beyond 292 years (C120_range_fails), an event of a dead entry point is left when the simulator refuses (C120_dangling_fails). |
| C121 | The Python class of an object inherits from exactly the interfaces the object implements | Python/Class | Mutual induction over the tree of interfaces for what the traversal adds; C3 merge of lists that are parts of one list without repetition succeeds and keeps all of them; the table itself is checked node by node. | partial | Proved for every set of interfaces of the table. False for IFactory and collections, which the table does not contain. |
| C122 | Attributes and items of simulator objects in Python are the objects of that name | Python/Attr (over Path/Model, Python/Class, Python/Value) | One-segment paths: candidates of Resolve are steps in the tree and conversely; attribute search from the theorem on the order of classes (C121); assignments from the conversions (C118). | partial | Holds for every object that is not a field; false for attributes of fields, names of methods, None, and assignments to structures and arrays. |
| C123 | Deleting a component is safe and complete when its hooks change the container | Tree/Delete | Mutual induction over the nesting depth: the iterators of running calls are the positions of their components, which increase with the nesting. | partial | Proved for hooks that delete only components added after their own and that add only within the capacity of the vector. Otherwise false: iterator invalidated (C123_earlier_fails, C123_grow_fails), destroyed twice (C123_self_fails, C123_clear_fails), endless (C123_endless_fails), lower limit not kept (C123_lower_fails), program ended (C123_terminate_fails). |
| C124 | The type hints written for a simulator are valid Python and describe it | Python/Hints | Round trip: a reader for the part of Python that is used (characters, lines, blocks, names) is written independently of the writer; induction over the tree shows that it reads back a class that describes the object; the order of bases by a common linear order; attributes by the resolver of C122. | partial | False in full: see the _fails theorems. Proved for every tree of published objects with names that are identifiers of Python and descriptions that can stand between triple quotes: the file is written, read back by an independent reader, its classes can be created and describe the objects, and declared chains of attributes through components exist. A description with a backslash is left out (Python would read an escape sequence). |
| C125 | The predefined types and the enumerations of the standard are the same everywhere | Pub/Predefined, Pub/Types | The calls of the constructor are executed by the model of the registry and give the initial state; invariants over calls keep the entries; the tables of the standard are written down in the specification. | proved | The sizes of the enumerations come from headers outside the repository (four bytes). C125_extended shows that literals can be added behind those of the standard. |
| C126 | Factories live as long as the simulator and make instances of their type | Tree/Factory | Heaps of factories and instances by address; an invariant over calls says that what the collection refers to exists and agrees; a concrete sequence refutes the full statement. | partial | False in full: C126_fails shows that registering a factory twice deletes the registered one, then CreateInstance and the destructor use it. Proved for all sequences in which a factory is registered by its owner, callbacks return an instance or throw, and only existing instances are deleted. |
| C127 | Exceptions of data flow, simulator state, libraries and storage say what happened | Raise/Flow | Functions that give the exception with its data, linked to the models of the calls; the reading of a breakpoint is composed of steps with a fixed size, whose exceptions are characterised by composition; counterexamples for the parts that are false. | partial | Exact for published outputs, the state of the simulator, named libraries, reads and breakpoints. False in full: FieldAlreadyConnected of fields of components is raised for fields that are not connected (C127_connect_fails), the end of the file is never named (C127_end_fails), a directory that cannot be made raises an exception that is not of the standard (C127_open_fails). |
| C128 | An exception leaves no object behind, and its sender can be used where it is caught | Raise/Life | The calls with the set of objects that exist; an exception that leaves a constructor destroys what it owns. By induction over the depth of the types and the lists of fields, the set is as before; the sender is the parent, or is new and so destroyed; by induction over the calls for the registry. Counterexamples for the senders that dangle. | partial | After an exception exactly the objects from before exist, and when the sender is alive is characterised. Missing because false of the code: the sender of an exception raised inside the constructor of a field, of an array or class type or of a component's field is destroyed (_fails theorems). |
| C129 | The run loop keeps simulation time in step with Zulu time | `Verif/Sched/Pacing.lean`: the target speed, the delay of each turn in binary64 and 64-bit arithmetic | induction on the turns with the invariant delay = time due - time passed; rounding bounds from `Verif.Float`. `C129_nan_fails`: a NaN speed is kept and converted to an integer. `C129_end_fails`: at half speed or less the delay of the last slot (the hold event at the largest duration) does not fit | partial | Never ahead and never late without need, for runs of any length whose slots are less than 104 days apart; the time between the two readings of the clock in a turn is lost in each turn and appears in the bound. Not true of the code: SetTargetSpeed keeps a NaN, whose conversion is undefined; at half speed or less the delay before the hold event is undefined. |
| C130 | Operators and assignments on fields and properties in Python act on their current values | `Verif/Python/Oper.lean`: the operator methods of the binding, called as Python calls them, and assignments | induction on expressions and on programs; what Python does with plain values is a parameter. `C130_missing_fails`, `C130_pos_fails`, `C130_text_fails`, `C130_local_fails`, `C130_property_fails`: witnesses | partial | Proved for every expression with the operators that the binding defines, every program and every behaviour of Python on plain values. False of the code, with witnesses: // % ** are not defined, +e is the value itself, a text has no truth value, += on a local name rebinds it, a property is not converted. Python's order of method calls and pybind11's comparison are modelled from their documentation. The method name __nq__ (for __ne__) in the binding has no effect, != is the negation of __eq__. |
| C131 | Restoring a breakpoint leaves the event manager usable, whatever else is going on | `Verif/Event/Restoring.lean`: the event manager with the strings that `_ids` refers to, threads, `Restore` in its locked parts and its unlocked loop | invariant by induction over interleavings in which the others are idle during a `Restore`. `C131_truncated_fails`, `C131_standard_fails`, `C131_emit_fails`, `C131_query_fails`, `C131_loop_fails`: witnesses | partial | Holds for one thread, and for any threads that are idle while another is in Restore, if the breakpoint is complete or refused at once; a complete breakpoint repairs any state. False for a breakpoint that ends too early (dangling references, other ids for the events of the standard), and for calls of other threads during Restore. |
| C132 | An operation of the simulator that fails does not end the simulation | `Verif/Sim/Model.lean`, theorems in `Verif/Sim/Recover.lean` | two invariants by induction over histories: every transition still has its way back to Standby (without exceptions), and an event is in emission only while an operation waits for it (with exceptions). `C132_fails`: exceptions, for all continuations | partial | Proved for all histories without exceptions and, with exceptions, that the accepted operations depend on the state only. False with exceptions: Connect, Initialise, Store, Restore and Reconnect leave the simulator in the state of the transition for ever. |
| C133 | A scheduler whose Restore failed is as before, or consistent | `Verif/Sched/Persist.lean` on `Verif/Persist`, theorems in `Verif/Sched/Failed.lean` | `C133_cut` says exactly what is left at each of the four places, by induction over the restored values; `C133_run_fails`, `C133_id_fails`: witnesses | partial | Proved: a file refused at its beginning changes nothing, and exactly what is left when the file ends between the members. False: the next run raises std::out_of_range, or identifiers are given out twice. |
| C134 | Durations with floating point operands | `Verif/Chrono/Floating.lean` on the IEEE formats of `Verif/Mem/Float.lean`, theorems in `Verif/Chrono/FloatingProps.lean` | comparison, assignment and the compound operators as rounding, exact operation, rounding and truncation, for both formats; monotonicity and the error bound of rounding for all numbers; `_fails`: witnesses by computation in the kernel | partial | Exact for durations of at most 2^53 ns (double) or 2^24 ns (float) and results the type has; order and an error bound for all durations. Refuted beyond (the _fails theorems). long double operands and, for the error bound of chrono counts, periods that are no whole number of nanoseconds are not covered. |
| C135 | Operators of fields with floating point numbers | `Verif/Field/Floating.lean` (with the arithmetic of `Verif/Chrono/Floating.lean`), theorems in `Verif/Field/FloatingProps.lean` | rounding to nearest for both formats including overflow; truncation to the integer types; induction over the connections through C58; `_fails`: witnesses by computation in the kernel | partial | Holds when the value has at most 53 (24) bits and, for a float field with a double operand, the exact result is a double; refuted otherwise (the _fails theorems). Fields of type bool and char with integer operands: see C155; with floating point operands they are not covered. |
| C136 | Python references do not destroy the objects of a simulation | `Verif/Python/Own.lean`, theorems in `Verif/Python/OwnProps.lean` | invariant by induction over the steps of the program (addresses unique, what is within what is a forest, one wrapper per object, only the simulator is owned); `_fails` for every reachable state that has the object | partial | Proved of programs that get their objects by functions with a policy, and that use no object they have deleted; refuted of the five functions that name no policy. pybind11 itself (its policies and the registration of wrappers) is trusted; threads and exceptions are not modelled. |
| C137 | Entry points of deleted components are not called | `Verif/Sim/Holders.lean`: components, their entry points, the pointers kept by the scheduler, the event manager and the simulator, and the copies in the loops in progress. An entry point that does not exist, when used, is `none` | `HoldersSpec.lean` says who keeps a pointer and what a careful program does. Invariant of careful programs (every pointer kept points to an entry point that exists; every identifier taken by the scheduler is one of its events), by induction over programs. What a component can take back, and what it cannot (`_fails`), for every state | partial | False of the code: entry points are kept by plain pointers, and their destructor tells nobody. Proved of careful programs, whose condition is in HoldersSpec.lean: nothing is undefined, and every pointer kept points to an entry point that exists. A component whose events and subscriptions are its only registrations can take them back and be deleted when nothing is being executed, and leaves those of others. The _fails theorems: pending events, subscriptions, the copy of an emission in progress, an entry point that deletes its own component, events due in the same slot, immediate events, entry points of the initialisation, unsubscribing late, and reuse of an address. Not modelled: exceptions of entry points, several threads. |
| C138 | What is connected is disconnected before it is destroyed | `Verif/Sim/Matched.lean`: the tree of services and models with the states of the components, the calls of the simulator with what the hooks do, and what is seen: DoConnect, DoDisconnect, Disconnect, destruction. The use of a null pointer and `std::terminate` are the phase `crashed` | `MatchedSpec.lean` says what a life is and what a careful program does. For every program: the life of a component is one of six, by an invariant between the state of a component and what was seen of it, by induction over programs and trees. For careful programs: what is destroyed was disconnected. `_fails` for every state: Abort, exceptions in Connect, Initialise, Store, Restore, Exit, the deletion of composites | partial | False of the code in general. Every program: at most one connection, one disconnection after it, one destruction, last. Careful programs: what is destroyed was disconnected if it was connected. Proved failures, for every state: Abort; an exception of Connect, Initialise, Store, Restore; DoDisconnect that raises in Exit or in the destructor; the components below a component that is deleted. |
| C139 | Services can be used while components are disconnected | `Verif/Sim/Matched.lean`: `DoDisconnect` is a list of calls of services; a call that follows the pointer to the simulator of a service that is disconnected is the result `crash` | exact condition for `Exit` to use a null pointer, by induction over the visits; the services come before the models, so every model that unsubscribes in DoDisconnect does (`_fails`); a deletion in Standby does not (`_partial`) | partial | False of the code: Exit disconnects the services before the models, so that a model that unsubscribes, emits or adds an event in DoDisconnect makes the service follow a null pointer. Proved: the exact condition, and that a deletion while the services are connected is safe. |
| C140 | A Python test has a simulator of its own, in Standby, that does not outlive it | `Verif/Python/Case.lean`: setUp, the test and tearDown with the simulator of `Verif/Sim/Matched.lean`, the exceptions that leave each function, the references to the simulator, and the simulators that are alive while a list of tests is executed, with a runner that keeps the tests that failed or not | for all tests whose components can be disconnected, by induction over the list of tests: no other simulator is alive, every component is destroyed once; and with C138: what is connected is disconnected. `_fails`: an exception in `Exit`, an exception that is not an `Exception` in setUp, an assembly that leaves the Building state | partial | False in general: if DoDisconnect raises in Exit, tearDown does not delete the simulator (C140_exit_fails); if SystemExit or another exception that is no Exception leaves loadAssembly, setUp does not (C140_base_fails): with a runner that keeps failed tests, the simulator is alive in all later tests. setUp returns when the assembly has aborted the simulation (C140_standby_fails). Proved: for tests whose components can be disconnected no other simulator is ever alive and each component is destroyed once (C140_alone_partial, C140_destroyed_partial), and disconnected before if nothing raises in the simulator (C140_matched_partial); no exception is lost (C140_passed); the simulator is in Standby if the assembly only adds components (C140_standby_partial). |
| C141 | Restoring a breakpoint leaves the Zulu events and their thread consistent | `Verif/Sched/ZuluRestore.lean`: the Zulu thread of `Verif/Sched/ZuluRun.lean` together with the events of the other time scales, the numbers in `_events_table`, `Store` and `Restore` | invariant over all inputs, extending the invariant of the Zulu thread: nothing is used that is not there if Restore is called while no Zulu entry point runs and the Zulu events are those of the file. `_fails`, for every state: a stored Zulu event that does not wait now is never executed; a Zulu event that is not in the file ends the process when its time has come; its number is given to an event of simulation time, which the Zulu thread then executes; Restore during an entry point leaves a dangling reference | partial | Proved where Restore is called while no Zulu entry point runs and while the Zulu events are those of the file; false otherwise, since _zulu_events_table is neither stored nor restored. |
| C142 | Hold(false) holds the simulation once, at the next change of simulation time | `Verif/Sched/HoldLater.lean`: the state of the simulator, the subscriptions to PreSimTimeChange with the copy made by Emit, the run loop, and SafeExecute; entry points, subscribers and other threads make any calls | predicates kept by every call of an entry point, then an invariant over all inputs: the first thing that happens after a request is the hold; over the list of subscribers: when all are told the simulation is held. `_fails`, for every state: a second request aborts the simulation, a request survives another hold, and nothing happens when there are no events left | partial | Proved for all calls by entry points, subscribers and other threads as long as the simulation is not aborted. False: a second request before the hold raises EntryPointAlreadySubscribed, which aborts the simulation; Hold(true) leaves a pending request, which holds the next run; no hold when there are no events left. |
| C143 | Operations of the simulator may be called by several threads | `Verif/Sim/Loop.lean`: the instructions of all operations, the run loop, any number of threads; `Verif/Sim/ThreadsSpec.lean`: which calls are in order | the invariant of one thread (C25) for the only thread inside of the operations, and one for a thread that holds the simulation that another one executes; induction over histories. `_fails`: any number of operations start at once, by induction over the callers; consequences by evaluation | partial | Proved for histories in which an operation is accepted only while all other threads are outside of the operations, or it is Hold(true) while one other thread executes the simulation. False otherwise: any number of operations start at once, Exiting is left, entry points are called while storing, two run loops, a hold is lost. The accesses to _state and _lastGlobalEventId are taken as atomic; in C++ they are data races. |
| C144 | A write that a connected field refuses | `Verif/Field/Net.lean`; `Verif/Field/RefusedSpec.lean`: the order of the fields a write gets to, as an inductive relation | the fields written are exactly those before the first that refuses: induction over the stack with the fields written so far, and over the targets. `_fails`: for every network with a field that refuses, the field written has the new value after the exception; order of connections and `Connect` by evaluation | partial | A refused write is not undone (C144_undone_fails, for every network), fields connected after the refusing one are not updated (C144_behind_fails), a refused Connect leaves the connection (C144_connect_fails). Proved: exactly which fields have the new value, for all networks without cycle; strings too long for a field are left to C58. |
| C145 | Which fields may be connected | `Verif/Field/Tree.lean`, `Verif/Field/Arrays.lean`; `Verif/Field/EquivProps.lean`: the shape of a field | equality of the shapes, by induction on both fields at once. `_fails`: arrays of named types, for all arrays; consequences by evaluation | partial | AreEquivalent is an equivalence, and equality of shapes for all fields, with the primitive type of the array type in place of that of the items. For arrays of named types this is PTK_None: arrays of different items are connected (C145_kinds_fails, C145_connect_fails), and the same array published without a type is refused (C145_anonymous_fails). |
| C146 | Several Python threads may use one simulation | `Verif/Python/Gil.lean`: the simulator of `Verif/Sim/Loop.lean` with the interpreter lock | invariant: a thread without the lock is outside of the operations; hence all calls are in order in the sense of C143. `_fails`: an invariant of all histories after `Run` | partial | Proved: one after the other, legal changes of state (Abort by a hook in the middle of a transition excluded, as in C25), one run loop. False: the run loop keeps the interpreter lock, no other Python thread can hold the simulation, in any history (C146_hold_fails). |
| C147 | Fields written by several threads | `Verif/Field/Racing.lean`: the instructions of a write, any number of threads | fields that do not meet: simulation of each thread alone, by induction over the interleaving; alone: refinement of `Verif/Field/Net.lean`, by induction over stack and targets; values: invariant. `_fails`: interleavings, by evaluation | partial | Proved: threads that write fields that do not meet are independent, for all interleavings; a write alone does instruction by instruction what C58 says; values are never made up. False: connected fields (C147_connected_fails) and increments (C147_lost_fails), even if accesses were atomic. |
| C148 | Entry points that the scheduler executes write fields one after the other | `Verif/Field/Guarded.lean`: `Verif/Field/Racing.lean` with `_execMutex`, and handlers of global events without it | a write alone: by induction over the rank of the field; interleavings: invariant over the history, relating it to the writes in turn as C58 has them; `_fails`: an interleaving, by evaluation | proved | Proved for entry points that the scheduler executes. It does not extend to the handlers of global events, which the event manager calls without the mutex (C148_handler_fails). The deadlock of the scheduler's mutexes is in C66. |
| C149 | Event sinks called from Python | `Verif/Python/Notify.lean` on `Verif/Python/Value.lean` and `Verif/Emit/Model.lean` | cases of the relation between Python values and what they stand for, with C118 and the lemmas of C96; `_fails`: for all sinks of the class | partial | Proved: every value of the kind arrives; integer and character sinks refuse all else; fields as arguments of integer sinks. False: a sink without argument drops any argument (C149_ignored_fails), a sink of booleans takes a missing argument as false and any number as true (C149_missing_fails), texts are cut at a NUL (C149_nul_fails). |
| C150 | Connected arrays through any history | `Verif/Field/ArrHistory.lean` on `Verif/Field/Arrays.lean` | invariants by induction on the calls; induction on the connected arrays for one push; `_fails`: a history with three connections | partial | Size, kind, elements and connections proved for any history. A write does not reach all or none: an array that refuses stops the push, and Connect leaves arrays of different item kinds connected. |
| C151 | State files of any contents | `Verif/Persist/Model.lean` | induction on the type, with lemmas on the loops for any element; `_fails`: for all sizes (strings), for all orders (sets, maps) | partial | Exactness proved for numbers, strings of one byte characters, arrays, pairs, atomics and vectors nested at will; values accepted are storable for all types. False for sets and maps (duplicates accepted) and for the growth of strings (resized before the data is known to be there). That a byte read into a bool is 0 or 1 is not checked by the code either; the model has bytes only. |
| C152 | Uuids in Python | `Verif/Python/Ids.lean` on `Verif/Uuid/Model.lean` | C48 for the texts; induction on the operations for independence; `_fails`: for all Uuids and all states | partial | Texts without NUL, independence and Data1 are proved. False of the code: == compares identities, so that GetUuid() == GetUuid() is never true; Data2 and Data3 cannot be read or written; the constants can be written (undefined); what follows a NUL in a text is ignored. |
| C153 | Exceptions of refused writes name the field that refused | `Verif/Raise/Pushed.lean`, refining `Verif/Field/Net.lean` | refinement to the model of fields; induction on the depth of the push with the loop over the connections; `_fails`: for all fields | partial | What an exception says is true for every network; the sender is the first field that refuses for acyclic connections and values that fit. False of values that cannot be converted: InvalidAnyType has no sender and no value (C153_sender_fails). |
| C154 | Exceptions of the simulator in Python | `Verif/Python/Except.lean` | the translators as a list tried from the last to the first; what is found, by induction-free list lemmas; round trip of UTF-8 from C139's model; `_fails` for all texts that are not UTF-8, all names, all pairs of classes | partial | Proved for exceptions of at most one class below ::Smp::Exception whose text is UTF-8, and for all 46 classes of the library. False otherwise: a text that is not UTF-8 arrives as UnicodeDecodeError (C154_text_fails), exceptions told apart by name only arrive as plain Exception (C154_named_fails), an exception of two classes is caught by the last one registered only (C154_two_fails). |
| C155 | Operators of fields of truth values and characters | `Verif/Field/Flags.lean`, `Verif/Field/FlagsFloat.lean` on `Verif/Field/Ops.lean`, `Verif/Field/Floating.lean` and `Verif/Field/Net.lean` | arithmetic of the promoted types for all operands, with the lemmas of C107 and C135; no result of a flag is rounded to 0, since the inverse of every number is at least one unit; C58 for the connected fields; `_fails` for all values and networks | partial | Logical operations, numbers, shifts and codes are proved for all operands. False: -- of a false field, &= and ^= with numbers (C155_decrement_fails, C155_mask_fails), >>= and /= of characters from 128 on (C155_high_fails). With floating point operands: a flag becomes true exactly when the exact result is not 0 (C155_float), a NaN makes it true (C155_nan_fails); characters when the exact result is a number of the type (C155_char_float_partial), undefined when no character has it (C155_char_undefined_fails). Missing: results on characters that are rounded first. |
| C156 | An event source used by several threads | `Verif/Tree/Model.lean` (loops with their threads), theorems in `Verif/Tree/EmitThreads.lean` on the lemmas of `Verif/Tree/Emit.lean` | invariants over all interleavings: of an emission while the others go on, of the number of sinks to go; `_fails` for every history | partial | Emissions that overlap in any number of threads are exact and end (C156_exact, C156_ends); an exception ends only the emission it leaves, and what was notified is always a prefix (C156_raise, C156_prefix); no dangling iterator without unsubscription of a sink that is being notified (C156_safe). False otherwise, for every history (C156_erased_fails). Steps are atomic in the model: simultaneous changes of the std::set are data races in the code. |
| C157 | Simulators that have only some of the standard services | `Verif/Sim/Lacking.lean` (a machine with a stack of commands: calls, emissions, the loop of the scheduler, entry points and hooks of users), theorems in `Verif/Sim/LackingProps.lean` | invariant over all executions (what each command that remains to be done needs is there); for the converse, one execution that follows a null pointer for each of the 64 sets that is not complete | proved | Exactly the complete sets of services are safe (C157_exact); also which sets cannot be connected or run. Times are left out of the model: calls say where events go in the table. |
| C158 | Connections that change while values are pushed | `Verif/Field/Push.lean` (the vector of inputs, the loops with their indexes and threads), theorems in `Verif/Field/PushProps.lean` | invariants over all interleavings (the inputs at the start remain a beginning of the vector); `_fails` for every state | partial | Proved without disconnections in the middle of a push. False with them, in every state and for every input: a null pointer is followed (C158_null_fails) or an input is skipped (C158_skip_fails). Accesses to the vector are atomic in the model; in the code they are data races. |
| C159 | Assignments of durations with integers | `Verif/Chrono/Integral.lean` (statements on durations, over the built-in operators of `Verif/Field/Ops.lean`), theorems in `Verif/Chrono/IntegralProps.lean` | arithmetic for every operand and type, induction over sequences; characterisation of the operands for which unsigned division is exact | partial | Exact for every integer type but UInt64, with exactly the undefined cases; for UInt64 the operands for which the result is exact are characterised. False as stated for negative durations divided by a UInt64 and for shifts of negative durations (the _fails theorems). Operands of type bool and of enumerations are not modelled. |
| C160 | Breakpoints stored while another one is | `Verif/Sim/Nested.lean` (files, the stack of writers with positions and buffers), theorems in `Verif/Sim/NestedProps.lean` | invariant over all histories for different files; the exact contents, byte by byte, for the same file; `_fails` for all states | partial | Proved for different files; for the same file the contents are characterised byte by byte, and the claim is false (the _fails theorems). The device has room (C116 has full devices). |
| C161 | Unchecked accesses to fixed-size strings and searches in them | `Verif/Text/Search.lean` (unchecked accesses, the six searches of libstdc++, `substr`), theorems in `Verif/Text/SearchProps.lean` | induction over the loops of the searches; exact text after any write, with what is behind the terminator; `_fails` for every full string | partial | True for all searches, parts, reads and writes below the size; the exact text after any write is C161_write. False for writes on the terminator, which the _fails theorems show. |
| C162 | Arrays assigned to array fields as a whole | `Verif/Field/Whole.lean` (assignment and conversion of nested array fields over the net of C58), theorems in `Verif/Field/WholeProps.lean` | induction over the elements with the effect of one write (C58); mutual induction over the nesting; `_fails` by a witness | partial | Exact result of the assignment after any history, for connections without cycle and values that fit; equal to the array when no element is forced or connected to another one. Refuted for an element connected to an earlier one. |
| C163 | The moving average of the scheduler | `Verif/Sched/Average.lean` (the ring of samples with the arithmetic of `double`), theorems in `Verif/Sched/AverageProps.lean` | invariant: the ring, from its index on, is the last twenty of zeros and samples; `_fails` for any number of later samples by a second invariant | partial | Exact as long as the sums are numbers of type double (C163_whole: whole numbers up to 2^48); refuted beyond. Missing: a bound of the error for other samples. |
| C164 | Fields of a component found by their path | `Verif/Path/Published.lean` (`GetField` on the trees and segments of C39), theorems in `Verif/Path/PublishedProps.lean` | induction on the depth of the field for the path and its segments; induction on the segments for what is given; `_fails` by two small trees | partial | Proved for all fields that are not below an array made by PublishArray and, for the second part, for all paths without '..'; the two exceptions are theorems. The order in which a component lists its fields is the one of the tree. |
| C165 | Parameters of an operation found by their names | `Verif/Pub/Lookup.lean` (`GetParameter` on the operations of C56), theorems in `Verif/Pub/LookupProps.lean` | the invariant of the publication (C56) gives distinct names | proved | Null pointers are the subject of C165_null_fails. |
| C166 | Ancestors of objects | `Verif/Path/Ancestor.lean` (the two loops on the trees of C39), theorems in `Verif/Path/AncestorProps.lean` | induction on the distance from the root; refinement to the closure of `GetParent`; `_fails` by a small tree | partial | All proved for all objects; C166_contains_partial says exactly which objects are ancestors, namely all that contain the object apart from arrays made by PublishArray, for which the claim is false (C166_contains_fails). |

## 5. What the proofs found in the code

Each item is witnessed by the theorem in parentheses, or by the definition of the
model that cites the lines.

Scheduler and simulator

* `SetEventCycleTime` accepts a non-positive cycle for an endless event; with
  cycle 0 the run loop never leaves the current time (C10_fails, C10_livelock_fails).
* Moving the running event posts it twice or destroys it under the loop's feet
  (C01_fails, C06_fails, C12_iterator_fails, C12_event_fails).
* Removing or moving an immediate event, or an event of the batch being executed, removes it from
  `_events` only: the loop ends with `std::out_of_range`, or runs it at the old time
  (C08_fails, C08_batch_fails, C09_fails, C12_lookup_fails).
* Removing a Zulu event erases the slot of the same number in the table of simulation-time events
  (C02_fails, C04_order_fails, C11_fails, C13_fails).
* An event posted in a subscriber of PreSimTimeChange before the announced time makes
  `SetSimulationTime` throw out of the loop (C12_announce_fails).
* Due times overflow without check (C12_overflow_fails, C12_add_overflow_fails).
* Holding inside PreSimTimeChange leaves the time keeper's window open
  (C21_fails).
* `Run(d)` interrupted by `Hold` leaves the pointer to its destroyed local entry point in
  the scheduler (C14_fails).
* The Zulu table is neither stored nor restored (C15_fails).
* The Zulu thread waits until the time that came first when it began to wait; an event posted
  for an earlier time meanwhile is executed late (C79_fails). A period of 0 is
  accepted for an event repeated for ever, which then blocks the thread (C79_period_fails). Removing a Zulu event
  from the entry point of another one due at the same time, or moving a Zulu event from its
  own entry point, ends the program (C80_fails_*, C78_early_fails).
* `_eventsMutex` and `_execMutex` are taken in both orders (C66_fails).
* Posting from another thread races with the loop: stale time check, slot erased after
  the insertion, time moved over the event (C67_stale_fails, C67_lost_fails, C67_stop_fails).
* An entry point that holds and then runs again re-enters `_EnterExecuting` while
  `_execMutex` is held: self-deadlock (not modelled, see Sched/Model).
* `Abort` in the middle of a transition is undone by the transition; EnterAborting is
  emitted before the state changes; Reconnecting has no leave event; an exception of an
  initialisation entry point loses the others and leaves the simulator in
  Initialising; `Reconnect` does not treat its root; a breakpoint stores nothing inside
  containers (C26_fails, C26_fails_init, C27_fails, C29_fails, C29_stuck, C72_fails, C30_fails).
* A subscriber of EnterAborting that throws makes `Abort` call itself for ever
  (C65_fails, C65_abort_diverges).

Event manager, links, resolver

* The id returned by `QueryEventId` is unknown to other calls until the second critical
  section of its creator (C19_fails). After `Restore` an id given out
  after the breakpoint was stored is given to another name (C16_restore_fails).
* Link counts wrap at 2^32; sources with equal names hide each other; a source that removes
  its links while asked makes the registry skip the next one (C22_wrap_fails, C23_fails, C24_fails).
* Paths of containers, references and items of anonymous arrays do not resolve; after
  `..` to a field, and after a failure, a segment is dropped (C39_*_fails, C40_fails).

Components

* `DoConfigure` runs twice; `Disconnect` runs the hook before checking the state
  (C31_fails_*). Adding a component to a published composite always throws (C32_fails).
  The same field name can be published twice (C36_fails).
* A sink that unsubscribes itself while notified invalidates the iteration (C37_fails).

Values, text, persistence

* A `std::wstring` is stored by `size()` bytes only (C44_fails).
* `String::remove_prefix` beyond the size, `DateTime` conversion near the end of the range
  (C45_fails, C47_fails).
* `AnySimple`: equality is not an equivalence; a refused assignment loses a string; the check
  of large integers against floating point is undefined; assigning its own string reads
  freed memory (C51_fails, C52_fails, C69_fails, C70_fails).
* `cstring`: copying a moved-from object and assigning the own `c_str()` are undefined;
  self-move-assignment loses the value (C77_fails).
* Log patterns ending in `%` or with an open brace read out of bounds (C63_pattern_fails).
  An appender with an unknown layout dereferences a null pointer (C101_layout_fails); two appenders on
  one file, for instance two without file name, overwrite each other (C101_sameFile_fails). An invalid
  path expression, or a list of levels without a name, lets every entry pass.
* `DateTime::operator=(duration)`, the conversions of `protected_reference` and `ArrayField::fill`
  (a field cannot be made from a value, Field.h:638) are ill-formed if instantiated.

Publication and fields

* Structure fields are registered without checking their type, so that structures may be
  unregistered or contain themselves (C53_fails, C53_expand_fails). NaN passes every range,
  a negative string length accepts everything (C55_fails).
* A failing `Force` leaves the field unforced; a failing `Connect` leaves it connected;
  strings are cut by data flow; arrays of different item kinds connect; `SetValue` on an array does
  not push; cyclic data flow recurses for ever (C57_fails, C58_*_fails).
* `SetValues` is not atomic; a published `String8` array reads through a null pointer; enumeration
  arrays and enumerations not of four bytes are not checked (C59_fails, C59_string8_fails, C60_*_fails).
* `RemoveLinks` skips the connection after a removed one, does not look at items of dataflow arrays
  and structures connected on their own, nor at published outputs, so that a deleted component may
  still be written to (C87_*_fails). A published output whose `Connect` raises stays connected
  (C88_fails).
* A library that loads another one in its `Finalise` is finalised again without end while the other
  one never is (C89_fails). Deleting a standard service through its container leaves the getter with
  a dangling pointer, and no service added later replaces it (C90_fails).
* A duration or a date is printed like a string, a negative `Char8` as an octal number of eleven
  digits; on a stream in base sixteen numbers are printed in that base without mark, and printing a
  control character puts the stream back to base ten (C91_*_fails). Printing a null string is
  undefined.
* Publishing a variable whose structure type contains itself overflows the stack (C84_fails). A
  string type of negative length is accepted, and writing such a field is undefined
  (C85_length_fails). A nested field annotated as state is only stored if all it is in is.
* A property of string type accepts a null string and reads it back as the empty one (C92_fails);
  a null request is ignored by generated classes and raises in the others.
* Calls of the time keeper from several threads can wait for each other for ever: `GetEpochTime`
  evaluated from right to left against `SetEpochTime` with a mutex that prefers writers
  (C93_deadlock_fails), `Restore` against `SetEpochTime` with any mutex (C93_restore_fails).
  `SetSimulationTime` called by two threads can make the time go back (C93_back_fails).
* A link added by a thread while another one is in the middle of removing it is counted but not
  listed, so that its target can be removed under a component that does not let go of links (C94_fails).
* A breakpoint stored after a hold during PreSimTimeChange does not tell that a change of the time is
  under way: `SetSimulationTime` has an effect in the original and none in the restored simulation
  (C95_fails). A breakpoint stored by the entry point that has just called `Hold(true)` loses the
  events of the same time not called yet and the next call of a cyclic event (C95_entry_fails).
* `Subscribe` compares kinds, not C++ types: a sink of a narrower type than its kind makes `Emit` raise
  and keeps the sinks after it from being notified (C96_fails).
* The run loop does not test its status before its first event, nor after PostSimTimeChange, and
  `Abort` does not stop it: `Hold(true)` in a subscriber of EnterExecuting that runs before the
  scheduler's is lost (the simulation runs in standby), in one of PostSimTimeChange one more entry
  point is called, after `Abort` the loop goes on; `Hold` followed by `Run` on another thread while
  an entry point is running gives two loops at once (C97_fails).
* With several threads, an emission that has copied its subscribers executes an entry point after
  `Unsubscribe` of it has returned, possibly after the entry point is destroyed
  (C98_unsubscribed_fails); an id that `QueryEventId` has returned to a thread is rejected while the
  thread that asked first is still in its call (C98_known_fails).
* `InvalidAnyType` names the kind expected and the invalid one in the wrong order when a number does not
  fit in the kind it is written to, when a value is read as a kind it can never be read as, and from
  an event sink without argument (C99_write_fails, C99_read_fails, C99_notify_fails), and always from a
  request (C100_request_fails). A request of a property reports the property as operation and, for a
  setter, no parameter instead of one (C100_property_fails). The exception for a parameter that a request
  does not have is named after the parameter and has no message (C100_missing_fails).
* `AddModel` is accepted while the simulator connects, but a model added by a hook of another model to
  the container being visited is neither published, configured nor connected (C104_added_fails); a hook
  that deletes an earlier component of the container being visited makes the loop skip one and use a null
  pointer (C104_removed_fails).
* A generated class that does not declare a hook its parent class declares has the parent's hook executed
  a second time (`ComponentHelper.h:118-141` finds it by inheritance, C105_inherited_fails); a hook that
  raises makes those of the classes above be lost for ever (C105_raise_fails).
* An output field with a structure inside a structure cannot be connected: `StructureField` passes
  `output` on as `connectable`, and does not pass `connectable` on (Field.h:1170-1187), so that the
  inner parts cannot push and every `Connect` raises (C106_nested_fails). The members of an input
  structure are not inputs (C106_input_fails).
* `UInt16` fields: `field *= x` with a `UInt16` x is computed in `int` and undefined when the product is
  2^31 or more (C107, `C107_mul_fails`); an `Int32` field of value -4 divided by the `UInt32` 2 becomes
  2147483646 (`C107_sign_fails`). The operators compute their value before the check of the forcing, so
  that a division by zero is undefined also on a forced field (`C107_zero`).
* `fill` and `swap` of a connectable array, and a write through its conversion to `T &` (Field.h:988-992),
  do not reach the connected arrays (`C107_fill_fails`).
* `RemoveLinks` of a composite compares the exact component for references and event sources, but
  the ancestors for fields: deleting the composite leaves subscriptions of the sinks below it
  (C108_nested_fails). The loop of Component.cpp:159-163 erases from the collection it goes through, so
  that the second of two inputs of the same component stays connected (C108_fields_fails). The registry
  does not forget the links of a deleted component, neither as source (C108_source_fails) nor as target
  (C108_stale_fails). The entry points of a deleted component stay in the scheduler and event manager
  too (not in this model).
* A negative `Duration` compares greater than every `UInt64` (C109_unsigned_fails); chrono durations
  finer than a nanosecond are truncated, so that 0 ns == 500 ps (C109_picoseconds_fails); the
  comparison with `std::chrono::hours::max()` is undefined (C109_hours_fails); `d <= NaN` and
  `d >= NaN` are true (C109_nan_fails). Not modelled: a `Duration` parsed from a text that is no duration
  is an uninitialised number (Duration.cpp:32-35); `DateTime::operator=` of a chrono duration does not
  compile when used (DateTime.h:121-126).
* A `Restore` of the logger between the search for the name of a kind and its addition makes the same name
  appear twice, or a kind stand for another name (C110_restore_fails); the times of one entry of the log can be
  of two moments (C110_moment_fails).
* `AddComponent(nullptr)` of a container or a reference raises `std::bad_typeid` and not `InvalidObjectType`: the
  name of the dynamic type of the object is asked for the message (`Exception.cpp:384`, `Helper.cpp:449-451`;
  C111_null_fails). `EventSource::Subscribe(nullptr)` follows the null pointer. `InvalidEventTime` shows, for a
  mission or epoch time, the simulation time it was converted to (C111_event_time_fails), and an enumeration of
  an impossible size is reported with the kind `None` (C111_enumeration_fails).
* The exceptions of arrays convert indexes and sizes to `Int64`: an index of 2^63 is reported as -2^63
  (C112_index_fails). `Xsmp::SimpleArrayField::SetValue` raises `InvalidFieldValue`, which has no index, where
  `SetValues` raises `InvalidArrayValue` (`Field.h:779`, `803`; C112_class_fails). Refusing a null `String8` reads
  it for the message (`StreamOperators.cpp:243-244`; C112_null_fails).
* `Finalise` of a package forgets all simulators, not the one that ends: another simulator can then
  not load the package, nor one that uses it (C113_two_fails). An `Initialise` that raised leaves its
  mark, and the next call reports success while services are missing (C113_retry_fails,
  C113_state_fails). A simulator initialised by a direct call of `Initialise_X` is never forgotten;
  a later one at the same address gets no services (C113_address_fails).
* `Exit` called from a Zulu entry point makes the Zulu thread join itself; the simulation is aborted
  and the destruction of the simulator ends the program with `std::terminate` (C114_exit_fails).
* After `Abort` the destructor of the simulator deletes components while the Zulu thread may be in
  one of their entry points, and the time keeper possibly before the scheduler (C114_abort_fails,
  C114_order_fails).
* A `Duration` made from a text that cannot be parsed reads a variable that was never set; a
  `DateTime` becomes 1970-01-01 silently; a `DateTime` after 2262-04-11 cannot be printed
  (C115_notADuration_fails, C115_notADate_fails, C115_late_fails).
* `Store` on a full device returns though the end of the file is missing; a `Store` that raises loses
  the breakpoint that was there; `SMP_LeaveStoring` and `SMP_EnterStandby` come before the file is
  complete (C116_full_fails, C116_lost_fails, C116_standby_fails).
* From Python, every negative index raises `IndexError`: `GetIndex` tests `index` where it means
  `result` (`ecss_smp.cpp:540`; C117_negative_fails). `del reference[i]` removes the first occurrence of
  the component (C117_delete_reference_fails).
* From Python, a text with U+0000 is cut without an error (`ecss_smp.cpp:505`; C118_nul_fails) and a number
  that a `Float32` cannot hold is rounded or becomes infinite without an error (`ecss_smp.cpp:529`;
  C118_float32_fails).
* From Python, an output named `async` or `await` keeps a name that cannot be written
  (`ecss_smp.cpp:546-551`; C119_names_fails), and a parameter named by a reserved word cannot be given by
  keyword (C119_keyword_fails).
* `Run` from Python cuts the fraction of the sum of its amounts off: `Run(seconds=1.001)` executes
  1000999999 ns (C120_nearest_fails); beyond 292 years the conversion is undefined
  (C120_range_fails). It posts its hold event before the simulator makes its test; when the test
  fails since another thread is still announcing Standby, the event stays in the scheduler and
  points to an entry point that has been destroyed (C120_dangling_fails).
* The Python module makes a class for every type of object from a table of interfaces. `IFactory` and
  `ICollection<T>` are registered but not in the table, so a factory or a collection that comes from the
  simulator is a plain `IObject` in Python: no `GetUuid`, no `CreateInstance`, no `len`, no index
  (C121_factory_fails, C121_collection_fails). This hits `GetFactory` and `GetFactories`, whose results
  are the only factories and collections that Python gets. What C117 says of indexing a collection
  holds for the function the module registers, which Python does not reach.
* `Resolve(IObject *, path)` drops a segment when the object is a field. From Python, every attribute of a
  field is the field itself: `component.structure.member` is the structure, a misspelt attribute raises
  nothing, and `component.field.anything = value` sets the field (C122_member_fails).
* A child with the name of a registered method (`GetState`, `Run`) cannot be read as an attribute but can
  be assigned (C122_hidden_fails). `object[None]` dereferences a null pointer (C122_none_fails).
* `Container::DeleteComponent` keeps an iterator of its vector while it calls `Disconnect` and the
  destructor of the component. A hook that deletes an earlier component of the container, or adds one
  when the vector is full, invalidates it, and `erase` is then undefined. Nested deletions also go
  below the lower limit, and a `DoDisconnect` that deletes its own component recurses for ever (C123).
* `s = s.substr(1)` of a `String<N>` copies within its own buffer by `char_traits::copy`, which is
  undefined for overlapping ranges; appending a part of the string itself is right (C45).
* The type hints of a simulator (C124): writing them before every component is published dereferences a null
  pointer (C124_unpublished_fails, C124_defined); a field called `from` or `in`, or a description that ends in
  a quote, gives a file that Python cannot read (C124_keyword_fails, C124_quote_fails); `IFallibleModel` is
  never shown (C124_fallible_fails); members of structures are declared, and at run time lead to the structure
  (C124_member_fails).
* A factory that is registered a second time is refused with DuplicateUuid and deleted, though the
  collection still refers to it: the next CreateInstance and the destructor use a deleted object
  (C126_fails). A callback that returns null is dereferenced.
* `Connect` of a structure or an array of fields raises `FieldAlreadyConnected` ("are already
  connected") when only one inner pair is connected, and also when an inner field cannot push at all
  (C127_connect_fails). `InvalidTarget` says that types are not compatible even when only the role of
  the target is wrong.
* `StorageReader::Restore` never reports the end of the file: `failbit` is set with `eofbit`, so that
  the message is "Logical error on input operation" (C127_end_fails).
* `Simulator::Store` to a directory that cannot be made raises `std::filesystem::filesystem_error`
  instead of `CannotStore` (C127_open_fails).
* `LoadLibrary(nullptr)` is undefined behaviour when there is a logger (C127_null_library).
* `GetSender` of an exception raised while an object is built is a dangling pointer where the
  exception is caught: publishing a structure with a field of an unknown type, registering an array
  or a class that refers to an unknown or unsuitable type, a component's field of an unknown type
  (C128). A wrong size of an enumeration is reported with a null sender.
* `SetTargetSpeed` keeps a NaN, which the run loop converts to an integer (C129_nan_fails). At half
  speed or less the run loop, once only the hold event is left, converts a delay that does not fit
  (C129_end_fails). The time between the two readings of the Zulu clock in a turn is lost in every
  turn, so that a run lags behind by their sum (C129_catches_up).
* From Python, `//`, `%` and `**` are not defined for fields and properties, `+field` of a text does
  not raise, `f = component.field; f += 1` does not change the field, and a property cannot be assigned
  to a field (C130). The binding spells `__ne__` as `__nq__`, which has no effect.
* `XsmpEventManager::_ids` holds references to the keys of `_events`. A `Restore`
  that raises (a file that ends too early) has cleared `_events` but not `_ids`:
  the next `Emit`, for instance that of `Simulator::Abort`, reads a destroyed
  string, and the events of the standard get other ids (C131_truncated_fails,
  C131_standard_fails). The same happens to other threads during a `Restore`
  (C131_emit_fails, C131_query_fails), and `for (… : _events.read().get())`
  releases the lock before the first round of the loop (C131_loop_fails).
* An exception during `Connect`, `Initialise`, `Store`, `Restore` or `Reconnect` of the simulator
  leaves it in Connecting, Initialising, Storing, Restoring or Reconnecting for ever; a wrong file
  name given to `Restore` is enough. Only `Abort` is still accepted (`C132_fails`).
* `XsmpScheduler::Restore` restores its members one after the other: after a damaged file the table
  of due times may have events that are not known (`std::out_of_range` in the next run), and
  identifiers in use may be given out again (`C133_run_fails`, `C133_id_fails`).
* A `Duration` with a `float` or `double` operand is itself rounded to 24 or 53 bits first: two durations
  compare equal to one double (C134_equal_fails), `d += 0.0`, `d -= 0.0`, `d *= 1.0` and `d /= 1.0`
  change a duration of 2^53 + 1 ns, and `d += 0.0f` one of 1000000001 ns (C134_identity_fails);
  `d += 0.0` of the maximal duration is undefined (C134_defined_fails). A chrono duration in seconds
  with a `double` count loses a nanosecond: 1.001 s become 1000999999 ns (C134_nearest_fails).
* The operators of fields compute in the common type and convert back: a `Float32` field with a `double`
  operand is rounded twice and may miss the nearest number (C135_twice_fails), `++` on a `Float32` field
  stops at 2^24 (C135_increment_fails), `+= 0.0` changes an `Int64` field of more than 53 bits, and
  `-= 1.0` on a `UInt8` field at 0 is undefined where `-= 1` wraps (C135_integer_fails).
* In Python, `IContainer.GetComponent`, `IReference.GetComponent`, `IResolver.ResolveAbsolute`,
  `IResolver.ResolveRelative` and `ILinkRegistry.GetLinkSources` name no return value policy: the
  object that they return is destroyed when Python drops it, though its container still holds it,
  and the simulator destroys it a second time (C136_take_fails); dropping a field or a collection
  that they return is undefined at once (C136_member_fails). All other functions keep the ownership
  in C++ (C136_which).
* A component that `CreateInstance` makes from Python and that is added nowhere is never destroyed
  (C136_leak_fails). A reference to an object does not keep the simulator: using it after the
  simulator is dropped is undefined (C136_stale_fails).
* Nobody is told when an entry point is destroyed (C137). A component that is deleted with a pending
  event, a subscription or an entry point for the initialisation is called afterwards, and `Store`
  asks it for its path. Some pointers cannot be taken back at all: those of `AddInitEntryPoint`, of
  immediate events and of events due in the same slot as the one being executed (`RemoveEvent` makes
  the loop of the scheduler throw `std::out_of_range`), and those copied by an emission in progress.
  `Unsubscribe` after the deletion uses the entry point for the log.
* Not every component that is connected is disconnected (C138). `DeleteComponent` disconnects the
  component itself and not what is in its containers: the components below a model that is deleted
  are destroyed connected. The destructor of the simulator disconnects only from Standby and
  Executing: after `Abort` (which an exception of an entry point calls as well), or after an
  exception of `Connect`, `Initialise`, `Store`, `Restore` or `Reconnect`, everything is destroyed
  connected. An exception of one `DoDisconnect` in `Exit` leaves all the components after it
  connected; in the destructor it ends the program.
* `Exit` disconnects the services before the models (C139), and `Component::Disconnect` sets the
  pointer to the simulator to null. A model that calls `Unsubscribe`, `Emit` or `Add…TimeEvent` in
  its `DoDisconnect`, as it must to be deleted safely (C137), makes the event manager or the
  scheduler follow a null pointer when the simulation exits. `Log` and `RemoveEvent` are safe.
* C140: `tearDown` of `xsmp.unittest.TestCase` calls `Exit` before `del self.sim` without `try`: if `DoDisconnect` of a
  component raises, the simulator stays an attribute of the test, which Python's `unittest` keeps with its result, and is
  alive in all later tests. `setUp` catches `Exception` only, so `SystemExit` has the same effect. `setUp` does not test
  the state of the simulator after `Connect`, which only logs when the simulator is not in Building state.
* `XsmpScheduler::Store` and `Restore` leave `_zulu_events_table` out (XsmpScheduler.cpp:572-582). A
  Zulu event that was stored is never executed after `Restore` in another process
  (C141_lost_fails). A Zulu event added after `Store` makes `_events.at` throw in the Zulu thread when
  its time has come, which ends the process (C141_terminate_fails). If its number is given to an event
  of simulation time, the Zulu thread executes and erases that event, and the run loop throws later
  (C141_reuse_fails). `Restore` while a Zulu entry point runs destroys the event in use
  (C141_running_fails).
* A second `Hold(false)` before the simulation is held raises `EntryPointAlreadySubscribed`; from an
  entry point this aborts the simulation (C142_twice_fails). It is enough that an entry point calls
  `Hold(false)` at the time when `Run(d)` ends. `Hold(true)` does not end a request made by
  `Hold(false)`, so that the next run is held at its first change of time (C142_stale_fails). A request made while
  the scheduler waits, or by a subscriber of PreSimTimeChange, does not prevent that change of time
  (C142_late_fails).
* Nothing protects `_state` and `_lastGlobalEventId` of the simulator: operations called by several
  threads in Standby all start (C143_together_fails), so that Exiting is left (C143_exit_fails),
  entry points are called while a breakpoint is stored (C143_store_fails) and two threads execute
  the simulation (C143_run_fails). `Hold(true)` called by another thread just after `Run` has set
  the state is lost: the simulation goes on, in Standby (C143_lost_fails). The thread that returns
  from `Run` clears `_lastGlobalEventId` in the middle of the `Hold` of another one, which lifts the
  protection of its subscribers (C143_clear_fails).
* A write that a connected field refuses is not undone: the fields visited before the refusing one have
  the new value, the others keep the old one, whether or not they would take it (C144). `operator=`
  and the compound assignments are `noexcept` (Field.h:480-513), so that such an assignment in the code of a component
  ends the program. `Connect` adds the target before it pushes: when the push is refused the
  exception leaves the connection in place (C144_connect_fails).
* `AreEquivalent` compares the primitive kind of the array type (Helper.cpp:252-257), which is `PTK_None` for every named
  array type, instead of that of its items: an array of numbers is connected to an array of strings of
  the same size (C145_connect_fails), and an array published by `PublishArray` without a type is refused
  where an array of the same items is expected (C145_anonymous_fails). Fields of structures are paired
  by position, not by name (C145_names_fails).
* No binding releases the interpreter lock of Python (`ISimulatorBinding.h:322-333`): while `sim.Run()` executes, no other
  Python thread runs, so that none can hold it, and Ctrl-C has no effect (C146_hold_fails). On the other hand the
  races of C143 cannot happen between Python threads (C146_legal, C146_one).
* Writes of a field take no lock. The scheduler executes its entry points one at a time, also those of Zulu time
  (`_execMutex`, C66_exclusive), but the event manager calls the handlers of global events without that lock: if the
  handler of e.g. PostSimTimeChange and an entry point of Zulu time write the same output, a connected input can keep the
  value of the first write for good (C147_connected_fails, C148_handler_fails), and increments are lost
  (C147_lost_fails). Between entry points that the scheduler executes neither can happen (C148_serial).
* In Python `sink(sender, 42)` of an event sink without argument calls it and drops the 42 (C149_ignored_fails);
  `sink()` of a sink of booleans calls it with false (C149_missing_fails).
* Arrays of the same size whose items have different kinds stay connected although `Connect` raised; from then on every `Push` raises and the arrays connected after that one get nothing, and an element write in the component's code, which is `noexcept`, ends the program (C150).
* `Restore` of a string gives it the size that the file announces before it knows that the file has the characters: eight bytes are enough to ask for any size (C151). `Restore` of sets and maps accepts elements and keys that are there twice and drops the later ones (C151).
* In Python, `Uuid` has no `__eq__` and no `__hash__` of its own: `c.GetUuid() == c.GetUuid()` is always False. `Data2` and
  `Data3` are `std::array`s and `pybind11/stl.h` is not included: reading or writing them raises `TypeError`. The
  constants of `Uuids` are given by reference, so that writing their `Data1` modifies a constant. (C152)
* A `Finalise` that raises, or a component that raises in `DoDisconnect`, ends the program when the simulator is
  destroyed, since the destructor calls them without catching; the libraries loaded before are not finalised. (C89)
* `InvalidAnyType` raised by a conversion of a value written to a field has a null sender: the field is not named. (C153)
* Exceptions in Python (C154): an exception whose text is not UTF-8 arrives as `UnicodeDecodeError`, which
  no class of the standard catches; exceptions told apart by their name alone (`InvalidUUID`,
  `IncompatibleType`, …) arrive as plain `Smp.Exception`; an exception of a user that is two classes of the
  standard is caught by the one registered last only.
* Operators of Bool fields (C155): `--` makes a field that is false true, `&=` with an even number clears a
  field, `^=` with any number but 0 and 1 sets it. `>>=` and `/=` of a Char8 field act on a negative number for
  the characters from 128 on.
* Floating point operands of Bool and Char8 fields (C155): `+= NaN`, `/= 0.0` and `*= infinity` make a
  field true whatever it was; an operator whose result is not within -128..127 is undefined behaviour for a
  Char8 field, also when it is forced (`include/Xsmp/Field.h:490-501`).
* Event sources have no lock (C156): a thread that unsubscribes a sink while another thread's emission is at
  it leaves that emission with an iterator to an erased element; subscribing the sink again at once does not
  help (`src/Xsmp/EventSource.cpp:58-85`). The model of C37 marks the loops at erased elements.
* Each standard service has a package of its own, but most need others, whose pointers they follow
  without a test: `XsmpTimeKeeper::DoConnect` and `XsmpScheduler::DoConnect` need the event manager,
  `SafeExecute` the logger, the scheduler the time keeper and the logger, `Restore` of the scheduler
  the resolver, `SetSimulationTime` the scheduler. C157_exact says which sets of services are safe:
  C157_connect_fails, C157_run_fails.
* The loop of a push goes from index 0 to the number of inputs at its start (Field.cpp:359-363,
  434-440): an input disconnected meanwhile, by another thread or by an input that is written, makes
  it follow a null pointer or skip an input (C158_null_fails, C158_skip_fails).
* A negative `Duration` divided with `/=` by a `UInt64` or `size_t` becomes positive, and `%=` is wrong too, because the
  count is converted to the unsigned type (C159_divide_fails, C159_remainder_fails); `>>= 1` and `/= 2` differ for negative odd
  durations (C159_shift_fails).
* `Store` called by an entry point of `SMP_EnterStandby` to the file of the `Store` that emits it: the writer of the outer one is
  destroyed after, and writes its buffer over the newer breakpoint (C160_older_fails, C160_mixture_fails).
* A character written with `[]` at the size of a `String<N>` brings back the rest of an earlier, longer text
  (C161_stale_fails), and leaves a full string without terminator (C161_full_fails); `back()` of an empty string is undefined.
* An array assigned to a field of an array type is not what the field is read as, if an element is connected to one before it
  (C162_connected_fails). `ArrayField::fill` (Field.h:638) does not compile when used: a value cannot be converted to a field.
* The moving average of the scheduler keeps the rounding errors of its sum (C163_lost_fails). Nothing reads it, and the samples of
  `_speed` are the Zulu time of the step before, divided by the simulation time of the next one (XsmpScheduler.cpp:628-633).
* `GetField("../B/x")` of a component gives the field `x` of another component `B`, instead of raising
  `InvalidFieldName`: `..` is followed from the collection of fields to the parent of the component
  (C164_outside_fails, Helper.cpp:328-333).
* `Operation::GetParameter(nullptr)` compares a null pointer with `strcmp` if the operation has a return
  value (C165_null_fails, Operation.cpp:116).
* An array made by `IPublication::PublishArray` is not an ancestor of its items (`IsAncestor`,
  C166_contains_fails, Publication/Field.cpp:203-208).
* In the example project, the sum of counters can overflow although it fits (C102_sum_fails).
* Writing a structured value in a request is not atomic; a parameter's default value is used
  only if the parameter is absent, not if it is unset.

## 6. Tests against wrong programs

`seeded/LOG.jsonl` has one line per edit of the model made in a scratch copy: the
definition, the edit, the claim it breaks, the theorems of `MANIFEST.json` that failed (that is,
that could only be kept by replacing a failing proof, their own or one they depend on, by
`sorry`) and the theorems tightened because of it.

## 7. Not modelled

The dynamic loader itself (which libraries and functions are found is any input, C89), file-system access of the storage reader/writer,
a wall clock that goes back, the moving averages of the load and the speed (nothing reads them),
formatting and parsing of dates (external `date` library), regular expressions, buffering of output streams other than the breakpoint file, pybind11 itself and the parts of the Python bindings not in Python/*, demangling,
console colours, the sign of a zero and the payload of a NaN, memory allocation failures, the texts of exceptions
(`Exception.cpp`; what the exceptions of `AnySimple`, requests, operations, fields, objects, services and types carry
is modelled, C99, C100, C111, C112, C153)
and of log messages, memory orders weaker than sequential consistency (accesses under a lock have none),
generated code other than the life cycle of components, the properties attached to fields and the
classes of the example project (C102).
