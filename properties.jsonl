{"id": "C01", "title": "Events execute exactly at their due time", "statement": "Whenever the scheduler invokes the entry point of a simulation/mission/epoch-time event, the simulation time visible through the time keeper equals the due time of that occurrence; no occurrence is ever executed early or late.", "quantifier": "every interleaving of Add*/Set*/Remove calls made by callbacks, holds, resumes and run steps; every event in it", "why_tests_cant": "The set of schedules (callbacks that post, move and remove other events while the run loop is inside them) is unbounded; a unit test fixes one.", "anchors": ["src/Xsmp/Services/XsmpScheduler.cpp::_EnterExecuting", "src/Xsmp/Services/XsmpScheduler.cpp::ExecuteEvents", "src/Xsmp/Services/XsmpScheduler.cpp::Execute"]}
{"id": "C02", "title": "A repeating event fires at t, t+c, ..., t+r*c and nowhere else", "statement": "An event posted at time t with cycle c>0 and repeat r>=0, which the application does not touch afterwards, has at any moment been executed once for each due time t+j*c (j<=r) strictly before the current simulation time, never for a due time after it, and never more than r+1 times.", "quantifier": "every history of the other events, every t, c, r, every moment of the run", "why_tests_cant": "Needs counting over unbounded executions with hold/resume at arbitrary points.", "anchors": ["src/Xsmp/Services/XsmpScheduler.cpp::Execute", "src/Xsmp/Services/XsmpScheduler.cpp::AddEvent"]}
{"id": "C03", "title": "Simulation time never goes back and never skips a due event", "statement": "Over any run the simulation time is non-decreasing, and it is never advanced beyond the due time of an event that is still waiting to be executed.", "quantifier": "every schedule and every point in the execution", "why_tests_cant": "Quantifies over all schedules; a test sees finitely many time steps.", "anchors": ["src/Xsmp/Services/XsmpScheduler.cpp::_EnterExecuting", "src/Xsmp/Services/XsmpTimeKeeper.cpp::SetSimulationTime"]}
{"id": "C04", "title": "Same-time events run in posting order; immediate events run first", "statement": "Events due at the same simulation time in the same pass are executed in increasing event-id (posting) order, and immediate events posted while one of them runs are executed before the next one.", "quantifier": "every set of events sharing a due time, every pattern of immediate postings from callbacks", "why_tests_cant": "Ordering must hold for every multiset of events and every callback behaviour.", "anchors": ["src/Xsmp/Services/XsmpScheduler.cpp::ExecuteEvents", "src/Xsmp/Services/XsmpScheduler.cpp::ExecuteImmediateEvents"]}
{"id": "C05", "title": "Event identifiers are never reused", "statement": "Two Add*Event calls never return the same event id, whether or not earlier events are finished or removed, and ids are returned in strictly increasing order.", "quantifier": "every sequence of scheduler calls", "why_tests_cant": "Universal over histories of unbounded length.", "anchors": ["src/Xsmp/Services/XsmpScheduler.cpp::AddEvent", "src/Xsmp/Services/XsmpScheduler.cpp::AddImmediateEvent", "src/Xsmp/Services/XsmpScheduler.cpp::AddZuluTimeEvent"]}
{"id": "C06", "title": "Hold/resume neither loses nor duplicates events", "statement": "At every moment each live event waits in exactly one place (its due-time slot, the immediate queue, the interrupted batch, or the currently running callback); holding in the middle of a batch and resuming executes the rest of the batch exactly once.", "quantifier": "every point at which Hold may occur, every batch size", "why_tests_cant": "The interruption point is arbitrary; tests pick a few.", "anchors": ["src/Xsmp/Services/XsmpScheduler.cpp::ExecuteEvents", "src/Xsmp/Services/XsmpScheduler.cpp::ExecuteImmediateEvents", "src/Xsmp/Services/XsmpScheduler.cpp::_LeaveExecuting"]}
{"id": "C07", "title": "A rejected scheduler call changes nothing", "statement": "If a scheduler call raises InvalidEventTime, InvalidCycleTime or InvalidEventId, then every later observable behaviour of the scheduler is as if the call had not been made.", "quantifier": "every state and every argument list leading to an exception", "why_tests_cant": "Requires comparing the whole state in every error branch from every state.", "anchors": ["src/Xsmp/Services/XsmpScheduler.cpp::AddEvent", "src/Xsmp/Services/XsmpScheduler.cpp::SetEventTime", "src/Xsmp/Services/XsmpScheduler.cpp::RemoveEvent", "src/Xsmp/Services/XsmpScheduler.cpp::SetEventRepeat", "src/Xsmp/Services/XsmpScheduler.cpp::SetEventCycleTime"]}
{"id": "C08", "title": "A removed event never executes again", "statement": "After RemoveEvent(id) returns without exception, the entry point of that event is never invoked for id again, and no other event is affected.", "quantifier": "every state in which RemoveEvent is called (including from callbacks running at the same time instant) and every continuation", "why_tests_cant": "The continuation is unbounded and the interesting cases are at callback points inside a batch.", "anchors": ["src/Xsmp/Services/XsmpScheduler.cpp::RemoveEvent"]}
{"id": "C09", "title": "Rescheduling moves exactly that event", "statement": "After SetEvent{Simulation,Mission,Epoch}Time succeeds with a time not in the past the event is next executed at the new due time, not at the old one, other events are untouched, and a new time in the past removes the event.", "quantifier": "every state, event and new time", "why_tests_cant": "Quantifies over all schedules and positions of the event in them.", "anchors": ["src/Xsmp/Services/XsmpScheduler.cpp::SetEventTime", "src/Xsmp/Services/XsmpScheduler.cpp::SetEventSimulationTime"]}
{"id": "C10", "title": "Every repeating event has a positive cycle time", "statement": "At every moment, an event whose repeat count is not zero has a strictly positive cycle time, so the run loop always makes progress.", "quantifier": "every history of Add, SetEventCycleTime and SetEventRepeat calls", "why_tests_cant": "Invariant over all call histories.", "anchors": ["src/Xsmp/Services/XsmpScheduler.cpp::AddEvent", "src/Xsmp/Services/XsmpScheduler.cpp::SetEventCycleTime", "src/Xsmp/Services/XsmpScheduler.cpp::SetEventRepeat"]}
{"id": "C11", "title": "Next-scheduled-event time is the minimum pending due time", "statement": "GetNextScheduledEventTime never exceeds the due time of a waiting simulation/mission/epoch event and, when no empty slot is left behind, equals the smallest one.", "quantifier": "every reachable schedule", "why_tests_cant": "Invariant of the time table over all histories.", "anchors": ["src/Xsmp/Services/XsmpScheduler.cpp::GetNextScheduledEventTime"]}
{"id": "C12", "title": "No scheduler history reaches undefined behaviour", "statement": "No sequence of public scheduler calls, made from outside or from callbacks, makes the run loop use an invalidated iterator, a destroyed event, an unknown id, or a signed overflow.", "quantifier": "every interleaving of calls with run-loop steps", "why_tests_cant": "Memory-safety over all histories.", "anchors": ["src/Xsmp/Services/XsmpScheduler.cpp::_EnterExecuting", "src/Xsmp/Services/XsmpScheduler.cpp::Execute", "src/Xsmp/Services/XsmpScheduler.cpp::RemoveEvent", "src/Xsmp/Services/XsmpScheduler.cpp::SetEventTime"]}
{"id": "C13", "title": "Zulu-time events are independent from simulation-time events", "statement": "Removing or moving a Zulu-time event never changes which simulation/mission/epoch/immediate events will be executed nor when.", "quantifier": "every schedule with both kinds of events", "why_tests_cant": "Depends on numerically coinciding keys among all possible times.", "anchors": ["src/Xsmp/Services/XsmpScheduler.cpp::RemoveEvent", "src/Xsmp/Services/XsmpScheduler.cpp::SetEventZuluTime"]}
{"id": "C14", "title": "Run(duration) returns held no later than now+duration and leaves nothing behind", "statement": "After Run(d) the simulation is held at a simulation time not later than start+d, and the temporary hold event of that call is not referenced by the scheduler once Run returned.", "quantifier": "every schedule, every duration, every earlier Hold issued by another party", "why_tests_cant": "Needs all runs that are interrupted before d elapses.", "anchors": ["src/Xsmp/Simulator.cpp::Run(Duration)", "src/Xsmp/Simulator.cpp::Hold"]}
{"id": "C15", "title": "Scheduler breakpoint round-trip", "statement": "Storing the scheduler and restoring it into any scheduler state yields the same pending events, due times, remaining repeats and next id.", "quantifier": "every scheduler state", "why_tests_cant": "All states, including ones with pending immediate and Zulu events.", "anchors": ["src/Xsmp/Services/XsmpScheduler.cpp::Store", "src/Xsmp/Services/XsmpScheduler.cpp::Restore", "include/Xsmp/Persist.h"]}
{"id": "C16", "title": "Event names and event ids are in bijection", "statement": "QueryEventId returns the same id for the same name forever, different ids for different names, never an id of a predefined event for a user name, and rejects the empty name without effect.", "quantifier": "every sequence of queries over all names", "why_tests_cant": "Injectivity over unboundedly many names.", "anchors": ["src/Xsmp/Services/XsmpEventManager.cpp::QueryEventId"]}
{"id": "C17", "title": "Emit runs each subscriber once, in subscription order, from a snapshot", "statement": "Emit(e) executes exactly the entry points subscribed to e when Emit was called, each once, in the order of their subscription, even if they subscribe or unsubscribe during the emission.", "quantifier": "every history of (un)subscriptions, including re-entrant ones from subscribers", "why_tests_cant": "Re-entrancy makes the space of executions unbounded.", "anchors": ["src/Xsmp/Services/XsmpEventManager.cpp::Emit", "src/Xsmp/Services/XsmpEventManager.cpp::Subscribe", "src/Xsmp/Services/XsmpEventManager.cpp::Unsubscribe"]}
{"id": "C18", "title": "Rejected event-manager calls change nothing and are rejected exactly when they should be", "statement": "Subscribe fails iff the id is unknown or the entry point is already subscribed to that id; Unsubscribe fails iff the id is unknown or it is not subscribed; failures leave all subscriptions unchanged.", "quantifier": "every state and argument", "why_tests_cant": "Universal over states.", "anchors": ["src/Xsmp/Services/XsmpEventManager.cpp::Subscribe", "src/Xsmp/Services/XsmpEventManager.cpp::Unsubscribe"]}
{"id": "C19", "title": "An id obtained from QueryEventId is immediately usable in every thread", "statement": "In every interleaving of concurrent QueryEventId calls, ids stay unique, and a thread that received an id can Subscribe/Emit with it.", "quantifier": "every interleaving of any number of threads", "why_tests_cant": "Interleavings cannot be enumerated by tests.", "anchors": ["src/Xsmp/Services/XsmpEventManager.cpp::QueryEventId", "src/Xsmp/Services/XsmpEventManager.h", "src/Xsmp/Services/ThreadSafeData.h"]}
{"id": "C20", "title": "Epoch and mission time are affine images of simulation time", "statement": "After SetEpochTime(e) (SetMissionTime(m)) the epoch (mission) time read is e (m), and afterwards it advances exactly with simulation time until the next setter; setting mission time leaves epoch time unchanged.", "quantifier": "every sequence of setter calls and time advances", "why_tests_cant": "Algebraic law over all values.", "anchors": ["src/Xsmp/Services/XsmpTimeKeeper.cpp"]}
{"id": "C21", "title": "Only the scheduler's announced step can move simulation time", "statement": "SetSimulationTime has an effect only between the PreSimTimeChange and PostSimTimeChange events, never moves the time backwards and never beyond the next scheduled event; all other calls leave it unchanged.", "quantifier": "every call sequence and argument", "why_tests_cant": "Invariant over histories.", "anchors": ["src/Xsmp/Services/XsmpTimeKeeper.cpp::SetSimulationTime"]}
{"id": "C22", "title": "Link count equals additions minus removals", "statement": "GetLinkCount(s,t) is the number of AddLink(s,t) minus the number of successful RemoveLink(s,t) since the last RemoveLinks(t), never negative; RemoveLink reports failure exactly when the count is zero.", "quantifier": "every call sequence over arbitrary sources and targets", "why_tests_cant": "Refinement over unbounded histories.", "anchors": ["src/Xsmp/Services/XsmpLinkRegistry.cpp"]}
{"id": "C23", "title": "Link sources of a target are exactly the components with a positive count", "statement": "GetLinkSources(t) contains a component once iff its link count towards t is positive.", "quantifier": "every call sequence, including several sources with the same name", "why_tests_cant": "Invariant relating two data structures over all histories.", "anchors": ["src/Xsmp/Services/XsmpLinkRegistry.cpp::AddLink", "src/Xsmp/Services/XsmpLinkRegistry.cpp::RemoveLink", "src/Xsmp/Services/XsmpLinkRegistry.cpp::GetLinkSources"]}
{"id": "C24", "title": "CanRemove / RemoveLinks protocol", "statement": "CanRemove(t) is true iff every source of t accepts link removal; after RemoveLinks(t) no source keeps a link to t and every source with links was asked to drop them once.", "quantifier": "every link graph", "why_tests_cant": "All graphs.", "anchors": ["src/Xsmp/Services/XsmpLinkRegistry.cpp::CanRemove", "src/Xsmp/Services/XsmpLinkRegistry.cpp::RemoveLinks"]}
{"id": "C25", "title": "The simulator only makes legal state transitions", "statement": "Whatever sequence of operations is called, including from entry points run during a transition, GetState changes only along Building->Connecting->Initialising->Standby, Standby<->{Initialising,Executing,Storing,Restoring,Reconnecting}, Standby->Exiting, any->Aborting; a call made in a wrong state has no effect.", "quantifier": "every sequence of calls with arbitrary re-entrancy", "why_tests_cant": "Re-entrant call trees are unbounded.", "anchors": ["src/Xsmp/Simulator.cpp"]}
{"id": "C26", "title": "Aborting and Exiting are final", "statement": "Once Abort has been called the state Aborting is never left; once the simulator has exited its state stays Exiting, or becomes Aborting when Abort is called.", "quantifier": "every later call sequence, and calls issued inside a transition", "why_tests_cant": "All histories.", "anchors": ["src/Xsmp/Simulator.cpp::Abort", "src/Xsmp/Simulator.cpp::Exit"]}
{"id": "C27", "title": "Global enter/leave events are properly bracketed", "statement": "For each state change, the leave event of the old state is emitted in the old state before the change and the enter event of the new state after it, for all states that have such events.", "quantifier": "every sequence of calls", "why_tests_cant": "All histories of emissions.", "anchors": ["src/Xsmp/Simulator.cpp::EmitGlobalEvent", "src/Xsmp/Simulator.cpp::Reconnect"]}
{"id": "C28", "title": "Connect publishes, configures and connects every component exactly once, parents first", "statement": "After Connect every component in the tree that was Created is Connected; each got Publish, Configure, Connect exactly once in that order and before its children; components already further on are not called again for the steps they passed.", "quantifier": "every component tree of any depth, every mix of initial component states", "why_tests_cant": "Structural induction over trees.", "anchors": ["src/Xsmp/Simulator.cpp::Connect", "src/Xsmp/Simulator.cpp::recursive_action", "include/Xsmp/ComponentHelper.h", "src/Xsmp/Component.cpp"]}
{"id": "C29", "title": "Initialisation entry points run exactly once, in order", "statement": "Each entry point registered with AddInitEntryPoint in a state that accepts it is executed exactly once, at the next initialisation, in registration order; those registered in other states are never executed.", "quantifier": "every history of registrations, initialisations and re-registrations", "why_tests_cant": "All histories.", "anchors": ["src/Xsmp/Simulator.cpp::AddInitEntryPoint", "src/Xsmp/Simulator.cpp::Initialise", "src/Xsmp/Simulator.cpp::Connect"]}
{"id": "C30", "title": "A breakpoint restores the state of every component", "statement": "Restore applied after Store, with the same component tree, gives every persistable component and every state field the value it had at Store time.", "quantifier": "every component tree and every state", "why_tests_cant": "Structural: all trees, all contents.", "anchors": ["src/Xsmp/Simulator.cpp::Store", "src/Xsmp/Simulator.cpp::Restore"]}
{"id": "C31", "title": "Component life cycle is linear", "statement": "A component goes Created->Publishing->Configured->Connected->Disconnected only; any other order raises InvalidComponentState without effect; the user's publish/configure/connect hooks run at most once.", "quantifier": "every call sequence", "why_tests_cant": "All histories.", "anchors": ["src/Xsmp/Component.cpp", "include/Xsmp/ComponentHelper.h"]}
{"id": "C32", "title": "Container multiplicity is always respected", "statement": "A container never holds more than upper (if not -1) components, never drops below lower by DeleteComponent, each contained component has the container's parent as parent and the right type; rejected additions/deletions raise the documented exception and change nothing.", "quantifier": "every sequence of AddComponent/DeleteComponent with any arguments and bounds", "why_tests_cant": "Invariant over histories and all bounds.", "anchors": ["src/Xsmp/Container.cpp", "include/Xsmp/Container.h"]}
{"id": "C33", "title": "Sibling names are unique", "statement": "No two components contained anywhere in the same composite have the same name, and GetComponent(name) returns the component of that name iff present.", "quantifier": "every sequence of additions and deletions over several containers", "why_tests_cant": "Global invariant across containers.", "anchors": ["src/Xsmp/Container.cpp::AddComponent", "include/Xsmp/Collection.h"]}
{"id": "C34", "title": "Reference multiplicity is respected", "statement": "A reference never holds more than upper links, RemoveComponent never brings it below lower, GetComponents lists the linked components in insertion order; failures change nothing.", "quantifier": "every call sequence and bounds", "why_tests_cant": "Invariant over histories.", "anchors": ["src/Xsmp/Reference.cpp", "include/Xsmp/Reference.h"]}
{"id": "C35", "title": "Collections behave as insertion-ordered name maps", "statement": "at(name) returns the unique element with that name, at(i) the i-th inserted one, size their number; adding a duplicate name raises DuplicateName and changes nothing.", "quantifier": "every sequence of insertions/removals and every lookup key", "why_tests_cant": "Refinement to an abstract map.", "anchors": ["include/Xsmp/Collection.h"]}
{"id": "C36", "title": "Published field names are unique", "statement": "No publication ever contains two fields with the same name, however they were published.", "quantifier": "every sequence of PublishField calls of both forms", "why_tests_cant": "Invariant over histories.", "anchors": ["src/Xsmp/Publication/Publication.cpp", "include/Xsmp/Collection.h"]}
{"id": "C37", "title": "Event source notifies each subscribed sink exactly once", "statement": "Emit on an event source calls each currently subscribed sink exactly once, with the emitted value, and no other sink; Subscribe/Unsubscribe fail exactly on type mismatch / double subscription / missing subscription.", "quantifier": "every subscription history", "why_tests_cant": "All histories.", "anchors": ["src/Xsmp/EventSource.cpp", "include/Xsmp/EventSource.h", "src/Xsmp/EventSink.cpp"]}
{"id": "C38", "title": "Factories are unique per UUID and creation uses the right one", "statement": "After any registrations each UUID maps to at most one factory, the first registered; CreateInstance(uuid) uses exactly that factory and returns null iff none is registered.", "quantifier": "every registration history and uuid", "why_tests_cant": "All histories.", "anchors": ["src/Xsmp/FactoryCollection.cpp", "src/Xsmp/Simulator.cpp::CreateInstance"]}
{"id": "C39", "title": "Resolving an object's path gives back the object", "statement": "For every object reachable in a tree with unique sibling names, resolving GetPath(object) from the root returns that object; an unresolvable path returns null.", "quantifier": "every tree, every object in it", "why_tests_cant": "Structural induction on trees and path strings.", "anchors": ["src/Xsmp/Helper.cpp::GetPath", "src/Xsmp/Helper.cpp::Resolve", "src/Xsmp/Services/XsmpResolver.cpp"]}
{"id": "C40", "title": "Path normalisation", "statement": "Repeated separators and '.' segments do not change the resolved object, '..' goes to the parent and an absolute path always starts at the simulator.", "quantifier": "every path string and every start object", "why_tests_cant": "All strings.", "anchors": ["src/Xsmp/Helper.cpp::GetNextSegment", "src/Xsmp/Helper.cpp::Resolve"]}
{"id": "C41", "title": "Object names are accepted iff they match the SMP grammar", "statement": "checkName accepts exactly a letter followed by letters, digits or underscores, or a bracketed decimal index, and rejects everything else with InvalidObjectName.", "quantifier": "every string, including empty and null", "why_tests_cant": "All strings.", "anchors": ["src/Xsmp/Helper.cpp::checkName"]}
{"id": "C42", "title": "Persisted values restore to themselves", "statement": "For every supported type built from arithmetic values, byte strings (std::string), object pointers, atomics, arrays, pairs, vectors, (unordered) sets and maps, Restore reads back exactly the stored value and consumes exactly the bytes Store wrote, whatever follows in the stream and whatever the target held before.", "quantifier": "every nested type, value, following stream and previous content", "why_tests_cant": "Induction over types and values.", "anchors": ["include/Xsmp/Persist.h", "include/Xsmp/Persist/StdVector.h", "include/Xsmp/Persist/StdMap.h", "include/Xsmp/Persist/StdString.h"]}
{"id": "C43", "title": "A persisted stream with another type is detected", "statement": "Restoring a value with a type whose identity hash differs from the stored one raises CannotRestore before any part of that value is modified; in a call with several values the earlier ones are restored and the later ones untouched.", "quantifier": "every pair of types and streams", "why_tests_cant": "All pairs.", "anchors": ["include/Xsmp/Persist.h"]}
{"id": "C44", "title": "Wide strings persist completely", "statement": "A std::wstring stored and restored is unchanged.", "quantifier": "every wide string", "why_tests_cant": "All strings.", "anchors": ["include/Xsmp/Persist/StdString.h"]}
{"id": "C45", "title": "Fixed-size strings never exceed their capacity", "statement": "Every operation of Xsmp::String<N> leaves at most N characters followed by a terminator inside the buffer, and assignment/append keep exactly the longest prefix that fits.", "quantifier": "every capacity, content and operation sequence", "why_tests_cant": "All sizes and contents.", "anchors": ["include/Xsmp/String.h"]}
{"id": "C46", "title": "CopyString never writes out of bounds and always terminates", "statement": "CopyString(dest,size,src) writes only dest[0..size], dest becomes the first min(size,len) characters of src followed by NUL.", "quantifier": "every destination size and source length", "why_tests_cant": "Memory safety for all sizes.", "anchors": ["src/Xsmp/Helper.cpp::CopyString", "src/Xsmp/cstring.cpp"]}
{"id": "C47", "title": "Duration and date-time algebra", "statement": "Duration/DateTime arithmetic is exact and obeys t + (u - t) = u and (t + d) - t = d whenever the inner result is a 64-bit number, the unit constructors are exact multiples, quotient and remainder reconstruct the value, and conversion to and from system time points uses the offset of 2000-01-01 12:00 and is inverted by its counterpart.", "quantifier": "every 64-bit value within the stated range", "why_tests_cant": "2^64 values.", "anchors": ["include/Xsmp/Duration.h", "include/Xsmp/DateTime.h"]}
{"id": "C48", "title": "UUID text form round-trips", "statement": "Parsing the printed form of any UUID gives the UUID back, printing a parsed string gives its lower-case form, and every string not of the 8-4-4-4-12 hex shape is rejected with InvalidUUID.", "quantifier": "all 2^128 UUIDs and all strings", "why_tests_cant": "Astronomically many cases.", "anchors": ["src/Smp/Uuid.cpp", "src/Smp/StreamOperators.cpp"]}
{"id": "C49", "title": "UUID order is a strict total order compatible with equality", "statement": "operator< on UUIDs is irreflexive, transitive, total, and equal UUIDs have equal hashes, so UUIDs can key maps.", "quantifier": "all pairs and triples of UUIDs", "why_tests_cant": "All triples.", "anchors": ["src/Smp/Uuid.cpp"]}
{"id": "C50", "title": "AnySimple integer conversions preserve the value or throw", "statement": "Writing or reading an AnySimple holding an integer kind through another integer kind either yields the mathematically identical value or raises InvalidAnyType; no silent truncation or wrap-around.", "quantifier": "all kinds and all 64-bit values", "why_tests_cant": "2^64 values times all kind pairs.", "anchors": ["src/Smp/AnySimple.cpp", "src/Smp/utility.h"]}
{"id": "C51", "title": "AnySimple equality is an equivalence", "statement": "operator== is reflexive, symmetric and transitive, and a value compares equal to its copies.", "quantifier": "all values of all kinds", "why_tests_cant": "All triples of values.", "anchors": ["src/Smp/AnySimple.cpp::operator=="]}
{"id": "C52", "title": "A failed AnySimple assignment leaves the old value", "statement": "If SetValue raises InvalidAnyType the AnySimple still holds its previous kind and value.", "quantifier": "all previous values and all rejected conversions", "why_tests_cant": "All pairs.", "anchors": ["src/Smp/AnySimple.cpp::SetValue"]}
{"id": "C53", "title": "Type registry keeps one type per UUID and stays closed", "statement": "After any sequence of AddType calls each UUID identifies at most one type, every array/structure/class refers only to registered types (so type references are acyclic), existing types never change, and failed calls add nothing.", "quantifier": "every sequence of type additions", "why_tests_cant": "Invariant over histories.", "anchors": ["src/Xsmp/Publication/TypeRegistry.cpp", "src/Xsmp/Publication/Type.cpp"]}
{"id": "C54", "title": "Request parameters are stored independently", "statement": "In a request, GetParameterIndex is injective on the (flattened) parameter names, SetParameterValue(i,v) followed by GetParameterValue(i) yields v, other parameters keep their value, and a rejected value or index changes nothing.", "quantifier": "every operation signature (with nested arrays/structures) and every call sequence", "why_tests_cant": "All signatures and values.", "anchors": ["src/Xsmp/Publication/Request.cpp"]}
{"id": "C55", "title": "Request values respect the parameter type", "statement": "A request never holds a parameter value outside the declared range, enumeration literals or string length of its type, nor a value of another primitive kind.", "quantifier": "every type and every value offered", "why_tests_cant": "All ranges and values incl. NaN.", "anchors": ["src/Xsmp/Publication/Request.cpp::isValid"]}
{"id": "C56", "title": "Dynamic invocation reaches the operation only with a matching request", "statement": "Invoke calls the operation only if the request names it and every input parameter has the declared kind and count; otherwise an exception is raised and the component is not called; property get/set respect the access kind.", "quantifier": "every operation/property set and request", "why_tests_cant": "All requests.", "anchors": ["src/Xsmp/Publication/Operation.cpp", "src/Xsmp/Publication/Property.cpp", "src/Xsmp/Publication/Publication.cpp", "src/Xsmp/Request.cpp"]}
{"id": "C57", "title": "A forced field keeps its value", "statement": "Between Force(v)/Freeze and Unforce, the value read from a forcible field is the forced one whatever is assigned to it or pushed to it by data flow; a failing Force leaves the field as it was.", "quantifier": "every sequence of assignments, pushes, force/unforce calls", "why_tests_cant": "All histories.", "anchors": ["include/Xsmp/Field.h", "src/Xsmp/Field.cpp"]}
{"id": "C58", "title": "Data flow: connected inputs follow the output", "statement": "After Connect and after every write of a connected output field, every directly connected input that is not forced holds the output's value; a failing Connect leaves both fields unchanged and unconnected.", "quantifier": "every acyclic connection graph and every write sequence", "why_tests_cant": "All graphs.", "anchors": ["include/Xsmp/Field.h", "src/Xsmp/Field.cpp"]}
{"id": "C59", "title": "Array fields reject bad indexes and are updated atomically", "statement": "Get/SetValue with an index outside the array and SetValues with a wrong length or element type raise an exception and leave all elements unchanged; otherwise exactly the addressed elements change.", "quantifier": "every array size, index, value vector", "why_tests_cant": "All sizes and contents.", "anchors": ["src/Xsmp/Field.cpp", "src/Xsmp/Publication/Field.cpp"]}
{"id": "C60", "title": "Enumeration fields only hold declared literals", "statement": "A published enumeration field or array element never takes, through SetValue, a value which is not a literal of its type.", "quantifier": "every enumeration type and value", "why_tests_cant": "All types/values.", "anchors": ["src/Xsmp/Publication/Field.cpp"]}
{"id": "C61", "title": "No log entry is lost, duplicated or reordered", "statement": "Every entry accepted before shutdown is delivered to each configured appender exactly once, in acceptance order, before the logger's destructor returns.", "quantifier": "every interleaving of any number of logging threads, the worker thread and shutdown", "why_tests_cant": "Interleavings are unbounded.", "anchors": ["src/Xsmp/Services/XsmpLogger.cpp::LoggerProcessor"]}
{"id": "C62", "title": "Log message kinds are stable and distinct", "statement": "QueryLogMessageKind returns the same kind for the same name, different kinds for different names, and predefined kinds keep their standard numbers.", "quantifier": "every sequence of queries", "why_tests_cant": "All histories.", "anchors": ["src/Xsmp/Services/XsmpLogger.cpp::QueryLogMessageKind"]}
{"id": "C63", "title": "Logger configuration text helpers are total", "statement": "unescape, trim, split and pattern parsing neither read outside their input nor loop for any input string; trim and split lose no non-separator character.", "quantifier": "every string", "why_tests_cant": "All strings.", "anchors": ["src/Xsmp/Services/XsmpLogger.cpp"]}
{"id": "C64", "title": "A model is failed iff one of its failures is failed", "statement": "IsFailed of a fallible model is true iff at least one of its failures is in failed state, after any sequence of Fail/Unfail.", "quantifier": "every set of failures and call sequence", "why_tests_cant": "All histories.", "anchors": ["src/Xsmp/FallibleModel.cpp", "include/Xsmp/Field.h"]}
{"id": "C65", "title": "An entry point that throws aborts the simulation instead of propagating", "statement": "An exception raised by an entry point executed by the scheduler or event manager never propagates to the caller: it is logged, Abort is requested, and the remaining entry points of the same emission still run.", "quantifier": "every list of subscribers and every subset of them that throws", "why_tests_cant": "All subsets.", "anchors": ["src/Xsmp/Helper.cpp::SafeExecute", "src/Xsmp/Services/XsmpEventManager.cpp::Emit"]}
{"id": "C66", "title": "Simulation-time and Zulu-time callbacks never deadlock", "statement": "While one thread executes a simulation event and the Zulu thread executes a Zulu event, both always eventually return; no interleaving blocks both threads forever.", "quantifier": "every interleaving of the simulation thread and the Zulu thread through the execution routines", "why_tests_cant": "A deadlock shows only under a particular interleaving.", "anchors": ["src/Xsmp/Services/XsmpScheduler.cpp::Execute", "src/Xsmp/Services/XsmpScheduler.cpp::ExecuteZulu"]}
{"id": "C67", "title": "Posting events from another thread is safe", "statement": "An event posted by another thread while the simulation runs is either rejected or executed at its due time; it never lands in the past of the simulation time nor stops the run.", "quantifier": "every interleaving of a posting thread with the run loop", "why_tests_cant": "Interleavings cannot be enumerated.", "anchors": ["src/Xsmp/Services/XsmpScheduler.cpp::AddEvent", "src/Xsmp/Services/XsmpScheduler.cpp::_EnterExecuting"]}
{"id": "C68", "title": "Fixed-size strings compare by content", "statement": "Comparing two Xsmp::String of any capacities is the lexicographic order of their contents: zero exactly for equal contents, and never influenced by the bytes behind the terminators.", "quantifier": "every pair of capacities, contents and left-over bytes", "why_tests_cant": "All pairs of contents and left-over bytes.", "anchors": ["include/Xsmp/String.h::compare"]}
{"id": "C69", "title": "Integers become floating point exactly or not at all", "statement": "Writing an integer of any type into a Float32 or Float64 AnySimple stores exactly that number if the format can represent it and raises InvalidAnyType otherwise.", "quantifier": "all integer types and all their values, both formats", "why_tests_cant": "2^64 values; rounding at the end of the range.", "anchors": ["src/Smp/AnySimple.cpp::convertFloat", "src/Smp/AnySimple.cpp::SetValue"]}
{"id": "C70", "title": "AnySimple owns its string", "statement": "Over any history of constructions, copies, moves, assignments (also failing ones), MoveString and destructions, no string is deleted twice, read after deletion, shared by two AnySimples, or leaked.", "quantifier": "every sequence of operations on any number of AnySimple objects", "why_tests_cant": "All histories and aliasings.", "anchors": ["src/Smp/AnySimple.cpp::_releaseContent", "src/Smp/AnySimple.cpp::operator=", "src/Smp/AnySimple.cpp::MoveString"]}
{"id": "C71", "title": "A truncated state file is detected", "statement": "Restoring from a stream that ends before the end of the stored value raises CannotRestore, wherever it is cut.", "quantifier": "every type, value and cut position", "why_tests_cant": "All types and positions.", "anchors": ["src/Xsmp/StorageReader.cpp::Restore", "include/Xsmp/Persist.h"]}
{"id": "C72", "title": "Reconnect connects every new component below and at its root", "statement": "After Reconnect(root) the component root and every component contained in it, at any depth, that was not yet connected is Connected; each got the missing calls exactly once, parents first.", "quantifier": "every component tree of any depth and mix of component states", "why_tests_cant": "Trees of any depth, with components created on the way; a test fixes one tree.", "anchors": ["src/Xsmp/Simulator.cpp::Reconnect", "src/Xsmp/Simulator.cpp::recursive_action"]}
{"id": "C73", "title": "Stored fields are restored exactly", "statement": "Restoring a field, or an array or structure of fields, from what Store wrote gives back the value and the forced and failed flags of every field that is part of the state, leaves transient fields unchanged and consumes exactly the bytes stored; restoring from data cut anywhere raises an exception.", "quantifier": "every field structure, every content, every cut", "why_tests_cant": "All structures and contents.", "anchors": ["include/Xsmp/Field.h::Store", "src/Xsmp/Field.cpp::Restore", "src/Xsmp/Publication/Field.cpp::Restore"]}
{"id": "C74", "title": "Scheduler calls are rejected exactly in the documented cases", "statement": "Each scheduling call either returns a fresh event id or raises the documented exception: InvalidEventTime exactly if the requested time is in the past, InvalidCycleTime exactly for a repeating event without a positive cycle, InvalidEventId exactly for an unknown id or one of another time kind. An accepted call has exactly the documented effect and leaves all other events alone.", "quantifier": "every state, every call and argument whose intermediate values fit in 64 bits", "why_tests_cant": "Boundary cases (a time equal to now) and interplay with every state of the loop.", "anchors": ["src/Xsmp/Services/XsmpScheduler.cpp::AddEvent", "src/Xsmp/Services/XsmpScheduler.cpp::SetEventSimulationTime", "src/Xsmp/Services/XsmpScheduler.cpp::SetEventRepeat", "src/Xsmp/Services/XsmpScheduler.cpp::RemoveEvent"]}
{"id": "C75", "title": "The scheduler loop makes progress", "statement": "A running loop that is not held never stays at one time for ever: left alone it passes every simulation time or ends because no event is left, and every event waiting for its time is executed at that time after finitely many steps.", "quantifier": "every reachable state, every behaviour of the timed waits", "why_tests_cant": "Liveness over unbounded executions.", "anchors": ["src/Xsmp/Services/XsmpScheduler.cpp::_EnterExecuting", "src/Xsmp/Services/XsmpScheduler.cpp::ExecuteImmediateEvents"]}
{"id": "C76", "title": "A structured argument put in a request is read back unchanged", "statement": "Injecting a value of a structured type under a parameter name succeeds exactly if each simple value in it has a parameter that accepts it. It sets exactly these parameters and no other one, and extracting under the same name gives the same value back, whatever the receiving field held. A missing parameter raises an exception, or leaves the default value when one is given.", "quantifier": "every nesting of arrays and structures, every request of an operation after any calls, every value", "why_tests_cant": "Unbounded nesting of types and all combinations of names.", "anchors": ["src/Xsmp/Request.cpp::inject", "src/Xsmp/Request.cpp::extract", "src/Xsmp/Request.cpp::getValue", "include/Xsmp/Request.h::get", "src/Xsmp/Publication/Request.cpp::init"]}
{"id": "C77", "title": "A cstring is a string value that owns its memory", "statement": "Copies are independent, a moved cstring hands its string over, c_str returns the characters given up to the first zero, no operation reads or frees memory that is not allocated, and when all cstrings are destroyed nothing stays allocated.", "quantifier": "every sequence of constructions, copies, moves, assignments and destructions of any number of cstrings", "why_tests_cant": "Aliasing and ownership over arbitrary histories; undefined behaviour need not show in a test.", "anchors": ["src/Xsmp/cstring.cpp::cstring", "src/Xsmp/cstring.cpp::operator=", "include/Xsmp/cstring.h::c_str"]}
{"id": "C78", "title": "A Zulu event is executed at its Zulu times, r+1 times", "statement": "A Zulu event posted for time t with period c and r repetitions, left alone, has its j-th occurrence when the Zulu clock shows t+j*c or more, never earlier; there are at most r+1 occurrences, the next one is always pending for exactly t+j*c, and once the thread sleeps every occurrence due so far has taken place. Entry points are only called in the states Executing and Standby, and events are taken in the order of their times.", "quantifier": "every interleaving of the Zulu thread with calls from any thread, clock advances and simulator state changes", "why_tests_cant": "Depends on thread interleavings and on the wall clock; a test sees a few schedules.", "anchors": ["src/Xsmp/Services/XsmpScheduler.cpp::InternalZuluRun", "src/Xsmp/Services/XsmpScheduler.cpp::ExecuteZulu", "src/Xsmp/Services/XsmpScheduler.cpp::AddZuluTimeEvent"]}
{"id": "C79", "title": "The Zulu thread does not sleep past the time of an event", "statement": "While the Zulu thread sleeps no Zulu event is due; when it does not sleep, it comes to rest after finitely many steps with every event due later.", "quantifier": "every reachable state of the thread", "why_tests_cant": "Late wake-ups only occur for particular orders of posting while the thread waits.", "anchors": ["src/Xsmp/Services/XsmpScheduler.cpp::InternalZuluRun", "src/Xsmp/Services/XsmpScheduler.cpp::AddZuluTimeEvent", "src/Xsmp/Services/XsmpScheduler.cpp::SetEventZuluTime"]}
{"id": "C80", "title": "Calls on Zulu events do not kill the Zulu thread", "statement": "No sequence of calls that post, move, change or remove Zulu events makes the Zulu thread throw or use an erased event.", "quantifier": "every interleaving of calls with the thread", "why_tests_cant": "The failures need events due at the same time, or calls made from the executed entry point.", "anchors": ["src/Xsmp/Services/XsmpScheduler.cpp::ExecuteZulu", "src/Xsmp/Services/XsmpScheduler.cpp::RemoveEvent", "src/Xsmp/Services/XsmpScheduler.cpp::SetEventZuluTime"]}
{"id": "C81", "title": "Disconnecting the scheduler ends the Zulu thread", "statement": "Once DoDisconnect has set the terminate flag, the Zulu thread ends after finitely many of its own steps, whatever it was doing, unless the program itself ends (C80).", "quantifier": "every state of the thread reachable by any sequence of calls", "why_tests_cant": "A missed wake-up or an endless inner loop shows only under particular schedules.", "anchors": ["src/Xsmp/Services/XsmpScheduler.cpp::DoDisconnect", "src/Xsmp/Services/XsmpScheduler.cpp::InternalZuluRun"]}
{"id": "C82", "title": "A double becomes a float without loss or not at all", "statement": "Writing a Float64 into a Float32 AnySimple, or reading a Float64 AnySimple as Float32, gives a float equal to the double or raises InvalidAnyType; the other direction always succeeds and is exact.", "quantifier": "all doubles (infinities and NaN included)", "why_tests_cant": "2^64 values; the tolerance of the check is absolute, so only small numbers are affected.", "anchors": ["src/Smp/AnySimple.cpp::convertFloat", "src/Smp/AnySimple.cpp::SetValue"]}
{"id": "C83", "title": "Published fields are at the addresses of the parts of the variable", "statement": "Publishing a variable with a registered type gives one simple field per simple part of the type, and no other, at the address of the part (array items at multiples of the item size, structure fields at their offsets), with the annotations of the innermost structure field; if the registered sizes and offsets are right, the fields are inside the variable and share no byte. It succeeds exactly if the name is valid and every type reached is registered and not Void.", "quantifier": "all types nested to any depth, all addresses, names and annotations", "why_tests_cant": "Types nest without bound; overlaps only show for particular combinations of sizes and offsets.", "anchors": ["src/Xsmp/Publication/Field.cpp::Field::Create", "src/Xsmp/Publication/Field.cpp::ArrayField", "src/Xsmp/Publication/Field.cpp::SimpleArrayField", "src/Xsmp/Publication/Field.cpp::StructureField"]}
{"id": "C84", "title": "Publishing a variable ends", "statement": "Publishing a variable with a registered type ends, with a field or with an exception.", "quantifier": "all registries and types", "why_tests_cant": "Needs a type that contains itself, by any number of steps.", "anchors": ["src/Xsmp/Publication/Field.cpp::Field::Create", "src/Xsmp/Publication/Type.cpp::StructureType::AddField"]}
{"id": "C85", "title": "A published field reads back what was written, and writing it changes nothing else", "statement": "After a SetValue that returns, the field reads as the value converted to its kind; a value of the field's own kind is accepted and reads back unchanged (strings cut to their length, enumerations of four bytes only with a literal); no byte outside the field and no other field changes; a SetValue that raises changes nothing.", "quantifier": "all variables published with types of correct sizes, offsets and (non-negative) string lengths, all parts at any depth, all values and memory contents", "why_tests_cant": "All values of all kinds at all positions of arbitrarily nested types.", "anchors": ["src/Xsmp/Publication/Field.cpp::SimpleField::SetValue", "src/Xsmp/Publication/Field.cpp::SimpleField::GetValue", "src/Xsmp/Publication/Field.cpp::SimpleArrayField::SetValue", "src/Xsmp/Publication/Field.cpp::SimpleArrayField::GetValue"]}
{"id": "C86", "title": "Restoring a published variable gives back the stored state, at whatever address", "statement": "What Store writes for a variable, Restore reads back in a program where the variable is at another address: exactly the bytes written are read, the parts that are state (the part and all that it is in) get the bytes they had, the other parts and the memory around the variable are unchanged.", "quantifier": "all variables published with types of correct sizes, offsets and string lengths, all annotations, memory contents and following data", "why_tests_cant": "Every combination of state annotations at every level of arbitrarily nested types.", "anchors": ["src/Xsmp/Publication/Field.cpp::SimpleField::Store", "src/Xsmp/Publication/Field.cpp::SimpleField::Restore", "src/Xsmp/Publication/Field.cpp::ArrayField::Store", "src/Xsmp/Publication/Field.cpp::StructureField::Restore"]}
{"id": "C87", "title": "RemoveLinks of a component disconnects its fields from the target", "statement": "After RemoveLinks(target) of a component, no output field of the component is connected to a field of the target or of a component below it, on any level of structures and arrays; every other connection is kept, in the same order.", "quantifier": "all components, all structures of fields, all sequences of Connect made before", "why_tests_cant": "The loop removes from the list it runs through: the result depends on the order and adjacency of connections; a remaining link is only noticed when the target has been deleted.", "anchors": ["src/Xsmp/Component.cpp::RemoveFieldLinks", "src/Xsmp/Component.cpp::RemoveLinks", "src/Xsmp/Field.cpp::InputFieldCollection", "src/Xsmp/Helper.cpp::IsAncestor"]}
{"id": "C88", "title": "Connect and Push of published outputs", "statement": "Connect of a published output (simple, array or structure) is refused, without effect, exactly if the target is already connected, not an input, the output itself, or not equivalent; otherwise the target is connected and every leaf of it has the value of the corresponding leaf of the source. Push copies every leaf to all the connected targets. Nothing else changes; if it raises, nothing changes.", "quantifier": "all structures of fields, all sets of targets and all values", "why_tests_cant": "Structures nest without bound and the order of the targets is the order of their addresses.", "anchors": ["src/Xsmp/Publication/Field.cpp::DataflowField::Connect", "src/Xsmp/Publication/Field.cpp::DataflowField::Push"]}
{"id": "C89", "title": "Libraries are finalised if and only if LoadLibrary returned", "statement": "When the simulator is destroyed, exactly the libraries for which LoadLibrary returned are finalised, as many times as it returned, in the reverse order, including libraries loaded by the Initialise of another one. LoadLibrary returns exactly if the file and both functions are there, Initialise returns true and no exception leaves it. A library whose load raises is not kept.", "quantifier": "all sequences of LoadLibrary, all nestings of LoadLibrary in Initialise and Finalise, all results", "why_tests_cant": "The order depends on the nesting of calls made by foreign code and on which of them fail; a test shows one nesting. Loading during Finalise changes the list while the destructor holds a reference into it.", "anchors": ["src/Xsmp/Simulator.cpp::LoadLibrary", "src/Xsmp/Simulator.cpp::~Simulator", "src/Xsmp/Simulator.h::_libraries"]}
{"id": "C90", "title": "Standard services are the first ones added", "statement": "GetLogger, GetEventManager, GetLinkRegistry, GetResolver, GetScheduler and GetTimeKeeper each return the first service with that interface for which AddService returned, and it exists. AddService returns exactly in the states Building, Connecting and Standby for a service of the simulator whose name is not used by a service or model; otherwise nothing changes. GetService(name) returns exactly the accepted service of that name.", "quantifier": "all sequences of AddService, AddModel and DeleteComponent, all components with any combination of interfaces, all states", "why_tests_cant": "A service may implement several interfaces and calls may be refused in between; the claim is about every order of calls.", "anchors": ["src/Xsmp/Simulator.cpp::AddService", "src/Xsmp/Simulator.cpp::AddModel", "src/Xsmp/Simulator.cpp::GetService", "include/Xsmp/Container.h::AddComponent", "include/Xsmp/Container.h::DeleteComponent"]}
{"id": "C91", "title": "The printed text of a simple value tells its kind and value", "statement": "Printing an AnySimple to a stream gives a text from which kind and value can be read: two different values never have the same text, a Char8 is a C++ character literal, integers are decimal with a suffix of the kind, and the stream keeps its format. Values of the enumerations of the standard are printed by their own names, unknown numbers distinguishably.", "quantifier": "all values of all kinds, all characters, all streams", "why_tests_cant": "Tests print a few values per kind. Whether two texts coincide is about all pairs of values, and depends on the state of the stream left by earlier output.", "anchors": ["src/Smp/StreamOperators.cpp::operator<<(AnySimple)", "src/Smp/StreamOperators.cpp::operator<<(PrimitiveTypeKind)", "src/Smp/StreamOperators.cpp::operator<<(SimulatorStateKind)"]}
{"id": "C92", "title": "Properties of a generated component reach their field", "statement": "The properties of a generated class are published with the type and access of the most derived definition. SetValue returns exactly when the property can be written and the value is of its type, and then exactly the attached field has changed and holds the value; otherwise nothing changed. GetValue changes nothing and returns the value of the attached field. So every field holds the last value accepted for it, static fields are shared by all components and others are not, and Invoke raises for names that are no accessor.", "quantifier": "all generated classes and chains of generated base classes, all components, all values, all histories of calls", "why_tests_cant": "Tests set each property of one test model once. The claim is about all classes the generator can write, redefinition in derived classes, and any interleaving of calls on several components that share static fields.", "anchors": ["src-gen/Xsmp/Tests/ModelWithPropertiesGen.cpp::InitRequestHandlers", "src-gen/Xsmp/Tests/ModelWithPropertiesGen.cpp::Invoke", "src-gen/Xsmp/Tests/ModelWithPropertiesGen.cpp::Publish", "src/Xsmp/Publication/Property.cpp::Property::GetValue", "src/Xsmp/Publication/Property.cpp::Property::SetValue", "include/Xsmp/Request.h::Request::get", "src/Xsmp/Component.cpp::Component::Invoke"]}
{"id": "C93", "title": "Calls of the time keeper from several threads act one after the other", "statement": "Threads that call the time keeper at the same time get results, and leave times, as if the calls had been made one after the other, each at a moment between its beginning and its end; no thread sees the times half changed. No thread takes a mutex it already has. Calls do not wait for each other for ever.", "quantifier": "any number of threads, all sequences of calls, all interleavings, all orders in which the operands of an expression are evaluated", "why_tests_cant": "A test runs a few interleavings out of all of them, with the order of evaluation of one compiler and the mutex of one platform.", "anchors": ["src/Xsmp/ThreadSafeData.h::ThreadSafeData", "src/Xsmp/Services/XsmpTimeKeeper.cpp::XsmpTimeKeeper::GetMissionTime", "src/Xsmp/Services/XsmpTimeKeeper.cpp::XsmpTimeKeeper::SetEpochTime", "src/Xsmp/Services/XsmpTimeKeeper.cpp::XsmpTimeKeeper::SetMissionTime", "src/Xsmp/Services/XsmpTimeKeeper.cpp::XsmpTimeKeeper::SetSimulationTime", "src/Xsmp/Services/XsmpTimeKeeper.cpp::XsmpTimeKeeper::Restore"]}
{"id": "C94", "title": "Links added and removed by several threads are counted and listed as one after the other", "statement": "Threads that add and remove links at the same time get the results, and leave the counts and sources, of the same calls made one after the other: when no call is under way, a component is a source of a target exactly when its count is positive.", "quantifier": "any number of threads, all sequences of calls, all interleavings", "why_tests_cant": "The window between the two locked parts of RemoveLink is a few instructions; a test would have to hit it with an AddLink of the same pair.", "anchors": ["src/Xsmp/Services/XsmpLinkRegistry.cpp::XsmpLinkRegistry::AddLink", "src/Xsmp/Services/XsmpLinkRegistry.cpp::XsmpLinkRegistry::RemoveLink", "src/Xsmp/Services/XsmpLinkRegistry.cpp::XsmpLinkRegistry::GetLinkSources", "src/Xsmp/Services/XsmpLinkRegistry.cpp::XsmpLinkRegistry::GetLinkCount"]}
{"id": "C95", "title": "A simulation continued from a breakpoint goes on as the one that stored it", "statement": "After a breakpoint is restored, whatever calls, holds and runs follow, the scheduler calls the same entry points for the same events at the same simulation times, and its calls return the same results, as the scheduler that stored the breakpoint would have; what the scheduler did before Restore has no influence.", "quantifier": "all reachable schedulers on hold that store, all reachable schedulers on hold that restore, all sequences of calls and steps of the run loop afterwards", "why_tests_cant": "A test compares one continuation of one breakpoint; the claim is about every continuation, with events moved, removed and added and holds in the middle of a slot.", "anchors": ["src/Xsmp/Services/XsmpScheduler.cpp::XsmpScheduler::Store", "src/Xsmp/Services/XsmpScheduler.cpp::XsmpScheduler::Restore", "src/Xsmp/Services/XsmpScheduler.cpp::XsmpScheduler::_EnterExecuting", "src/Xsmp/Services/XsmpTimeKeeper.cpp::XsmpTimeKeeper::Store", "src/Xsmp/Services/XsmpTimeKeeper.cpp::XsmpTimeKeeper::Restore"]}
{"id": "C96", "title": "The argument of an event reaches every subscribed sink unchanged", "statement": "If the C++ types of an event source and of its sinks are those of the kind they declare, every sink gets a value of its own type that stands for what was emitted (number, truth value, character, floating point value, text that fits). Integers and enumerations of other types than the kind's get the same number or make Emit raise; a text is cut to what the sink's array can hold.", "quantifier": "all values, all declared kinds, all C++ types for which there is a converter, all lists of subscribed sinks", "why_tests_cant": "The value goes through two conversions whose types are chosen independently by the author of the source and of each sink; tests use a few pairs of types and small values.", "anchors": ["include/Xsmp/EventSource.h::EventSource::Emit", "include/Xsmp/EventSink.h::EventSink::Notify", "include/Xsmp/AnySimpleConverter.h::AnySimpleConverter", "src/Xsmp/EventSource.cpp::AbstractEventSource::DoEmit", "src/Xsmp/EventSink.cpp::EventSink<void>::Notify"]}
{"id": "C97", "title": "Scheduled entry points are called while the simulation is executing, and not after Hold", "statement": "The entry points of events scheduled in simulation, mission or epoch time are called in the Executing state only, and once Hold(true) has told the scheduler, no entry point is called until the next Run.", "quantifier": "all interleavings of calls of simulator operations (from entry points, from subscribers of global events, from any number of threads) with the steps of the run loop, any number of events", "why_tests_cant": "The property depends on where a Hold, an Abort or a Run falls between the tests the run loop makes of its status, and on the order in which subscribers of EnterExecuting registered; a test tries a few fixed places.", "anchors": ["src/Xsmp/Simulator.cpp::Simulator::Run", "src/Xsmp/Simulator.cpp::Simulator::Hold", "src/Xsmp/Simulator.cpp::Simulator::Abort", "src/Xsmp/Services/XsmpScheduler.cpp::XsmpScheduler::_EnterExecuting", "src/Xsmp/Services/XsmpScheduler.cpp::XsmpScheduler::_LeaveExecuting", "src/Xsmp/Services/XsmpScheduler.cpp::XsmpScheduler::ExecuteEvents", "src/Xsmp/Services/XsmpScheduler.cpp::XsmpScheduler::ExecuteImmediateEvents"]}
{"id": "C98", "title": "The event manager used by several threads behaves as if its calls came one after the other", "statement": "With any number of threads calling QueryEventId, Subscribe, Unsubscribe and Emit, also from within the entry points an emission executes: the locked parts of the calls, in the order they happen, are a history of a single thread (Subscribe fails exactly if the entry point is subscribed at that moment, Unsubscribe exactly if it is not, an emission executes once each, in the order of subscription, the entry points subscribed at one moment between its beginning and its end); an entry point is not executed for an event after Unsubscribe has returned; equal names get equal ids, and an id that QueryEventId has returned is accepted.", "quantifier": "all interleavings of any number of threads, any nesting of calls from entry points, any names, ids and entry points", "why_tests_cant": "The outcome depends on the interleaving of the locked parts of several calls, including calls made by the entry points of an emission in progress; a test with threads sees a few schedules, not the absence of bad ones.", "anchors": ["src/Xsmp/Services/XsmpEventManager.cpp::XsmpEventManager::QueryEventId", "src/Xsmp/Services/XsmpEventManager.cpp::XsmpEventManager::GetEventName", "src/Xsmp/Services/XsmpEventManager.cpp::XsmpEventManager::Subscribe", "src/Xsmp/Services/XsmpEventManager.cpp::XsmpEventManager::Unsubscribe", "src/Xsmp/Services/XsmpEventManager.cpp::XsmpEventManager::Emit"]}
{"id": "C99", "title": "InvalidAnyType of an AnySimple names the kind expected and the kind that was given", "statement": "When SetValue(kind, value), a conversion operator, MoveString or the Notify of an event sink without argument raises InvalidAnyType, GetExpectedType is the kind the caller asked for and GetInvalidType the kind of the value passed or held; and an exception is raised whenever the kinds can never be converted.", "quantifier": "all kinds, all C++ argument and result types, all values", "why_tests_cant": "Twenty overloads and operators call the same helpers with two kinds of the same type in an order that cannot be seen from the call; the order depends on which check fails, for all pairs of kinds and all values.", "anchors": ["src/Smp/AnySimple.cpp::AnySimple::SetValue", "src/Smp/AnySimple.cpp::convertIntegral", "src/Smp/AnySimple.cpp::convertFloat", "src/Smp/AnySimple.cpp::AnySimple::MoveString", "src/Xsmp/EventSink.cpp::EventSink<void>::Notify", "src/Xsmp/Exception.cpp::InvalidAnyType"]}
{"id": "C100", "title": "Exceptions of requests and operations say what happened", "statement": "An exception raised by a request (of an operation, or to read or write a property) or by Operation::Invoke names the operation as the request does, the index passed and the number of parameters of the request, the parameter at that index and the value passed, the numbers of parameters, the parameter whose kind is wrong and the two kinds; the exception raised for a parameter the request does not have has a message that names the parameter and the operation.", "quantifier": "all registries, operations, requests after any sequence of calls, properties, indexes, values, implementations of IRequest", "why_tests_cant": "The name of the parameter is found by searching a map from names to indexes that the constructor fills; that it is always the right one depends on the whole history and on all flattened parameter lists. Swapped or constant arguments show only in accessors of the exception that tests do not read.", "anchors": ["src/Xsmp/Publication/Request.cpp::Request::SetParameterValue", "src/Xsmp/Publication/Request.cpp::Request::isValid", "src/Xsmp/Publication/Property.cpp::Property::Setter", "src/Xsmp/Publication/Property.cpp::Property::Getter", "src/Xsmp/Publication/Operation.cpp::Operation::Invoke", "src/Xsmp/Request.cpp::Request::setValue", "src/Xsmp/Exception.cpp::InvalidParameterIndex"]}
{"id": "C101", "title": "The configuration file of the logger says what is written where", "statement": "The value of a key of XsmpLogger.properties is the one of its first line 'key = value', whatever the white space, comments and blank lines; the appenders are those listed by log.rootLogger whose class exists (one console appender without that key), with the layout, file, levels and path expression of their keys; and when the logger has been destroyed, the console and every file contain, for every entry accepted before, in order, the text of each of their appenders whose levels and expression the entry passes, and nothing else.", "quantifier": "all file contents, all entries, all interleavings of logging threads, working thread and destructor, all regular expression engines and time formats", "why_tests_cant": "The meaning of an arbitrary configuration text and the interleavings of several threads cannot be enumerated; an appender with a wrong layout name fails only when it is first used, in another thread.", "anchors": ["src/Xsmp/Services/XsmpLogger.cpp::LoggerProcessor::parseProperties", "src/Xsmp/Services/XsmpLogger.cpp::LoggerProcessor::CreateAppender", "src/Xsmp/Services/XsmpLogger.cpp::Appender", "src/Xsmp/Services/XsmpLogger.cpp::FileAppender", "src/Xsmp/Services/XsmpLogger.cpp::LoggerProcessor::Process"]}
{"id": "C102", "title": "The counters of the example count what happens to them", "statement": "In the example project, a counter is 0 or the value last assigned to it (by ResetCount, by a write of its field, by the property count of a manager that holds it) plus what has been added since: 1 for each execution of increment and the value for each notification; a scheduled increment has been executed once for each of its due times that have passed, whatever else is scheduled; the properties sum and average of a manager are those of its counters at that moment; count cannot be read, sum and average cannot be written.", "quantifier": "all numbers of counters and managers' lists of counters, all sequences of calls, all interleavings of the calls with the steps of the scheduler, all events scheduled besides", "why_tests_cant": "The claim composes the scheduler, the entry points, the dispatch of requests and the generated properties over unbounded runs; the tests run one schedule of two counters, far from the limits of Int32.", "anchors": ["examples/project1/src/Example/Counter.cpp::Counter", "examples/project1/src/Example/CounterManager.cpp::CounterManager", "examples/project1/src-gen/Example/CounterGen.cpp::CounterGen", "examples/project1/src-gen/Example/CounterManagerGen.cpp::CounterManagerGen", "src/Xsmp/Services/XsmpScheduler.cpp::XsmpScheduler::Execute"]}
{"id": "C103", "title": "Strings and arrays compare, hash and concatenate by their contents", "statement": "The operators ==, !=, <, >, <=, >= of fixed-size strings of any capacities, with each other, with views and with C strings, in both orders, agree with the lexicographic order of the contents, which is a strict total order; equal strings have equal hashes; operator+ gives the concatenated contents; at reads the content and throws behind it. The operators of arrays agree with the lexicographic order of their items; at, fill and swap of arrays do what they say.", "quantifier": "all capacities, contents, bytes behind the terminator, views with any bytes, array sizes, item types and depths of nesting", "why_tests_cant": "There are more than twenty overloads, each over all pairs of contents and capacities; a wrong one shows as a lost key of a map only for some pairs.", "anchors": ["include/Xsmp/String.h::String", "include/Xsmp/String.h::std::hash", "include/Xsmp/Array.h::Array"]}
{"id": "C104", "title": "A visit of the component tree is safe and complete when hooks change containers", "statement": "While Publish, Configure, Connect, Reconnect or Exit visits the component tree, the hooks of the visited components may add components to any container and delete components of containers not reached yet. The visit never uses a component that does not exist; when it is over, the components visited are exactly those in the tree that were not added to a container whose loop had already begun; each is visited once, after the owner of its container, and gets exactly the calls due to its state, before its own containers are looped over; the others are untouched. (In full: every component of the tree is visited, whatever hooks add and delete: false.)", "quantifier": "all trees, states, sequences of changes made by hooks, places where an exception is raised, numbers of steps", "why_tests_cant": "Which components a loop reaches depends on when and where each hook changes which container; there are unboundedly many trees and interleavings of changes with the nested loops.", "anchors": ["src/Xsmp/Simulator.cpp::recursive_action", "include/Xsmp/Collection.h::Collection", "include/Xsmp/Container.h::Container", "src/Xsmp/Container.cpp::AbstractContainer"]}
{"id": "C105", "title": "The hooks of a component's classes are executed once, whatever they call", "statement": "For a component whose classes are generated one on top of the other, and hooks that may themselves call Publish, Configure, Connect and Disconnect of the component, catch the exceptions and raise: the changes of state are made in the order of a life, each at most once; a hook of Publish, Configure or Connect begins after the change; a call in the wrong state raises and executes no hook; over the whole life a hook is executed at most as often as one call plans; one call executes the hook of each class that declares it exactly once, parent classes first, last for Disconnect. (False for Configure, for classes that inherit a hook, and for Disconnect, whose hooks run in any state.)", "quantifier": "all numbers of classes, sets of declared hooks, finite trees of nested calls, caught and raised exceptions", "why_tests_cant": "The nesting of calls is unbounded, and which hook a class finds depends on what all classes below it declare.", "anchors": ["include/Xsmp/ComponentHelper.h::Helper", "src/Xsmp/Component.cpp::Component", "src-gen/Xsmp/Services/XsmpSchedulerGen.cpp::XsmpSchedulerGen"]}
{"id": "C106", "title": "The annotations of a field reach the fields inside it", "statement": "For a field declared as Field<T> with suffixes (::input, ::output, ::forcible, ::transient, ...), of any type T made of simple types, arrays and structures: a simple field inside it is forcible iff it or something around it is declared so; the declaration is rejected by the compiler iff an array of simple values would be forcible; the parts of an input, output or transient field are inputs, outputs, transient too; a field declared an output can be connected to every input of the same shape, and then all its parts are connected. (False: structures do not pass on input and output, nothing passes on transient, and an output with a structure inside a structure can never be connected.)", "quantifier": "all types (nesting of arrays and structures of any size and depth), all lists of suffixes, all worlds of fields", "why_tests_cant": "The class of an inner field is computed by templates from the annotations of all fields around it; the tests have one level of structures only.", "anchors": ["include/Xsmp/Field.h::apply_options", "include/Xsmp/Field.h::FieldTypeHelper", "include/Xsmp/Field.h::Field", "src/Xsmp/Field.cpp::FieldHelper"]}
{"id": "C107", "title": "Writing fields with operators, references and iterators", "statement": "An operator on a simple field (++, --, +=, -=, *=, /=, %=, <<=, >>=, &=, |=, ^=) gives the field, and every field connected to it that is not forced, the value of the operation, for all integer types of field and operand: the exact number when the type of the field has it, otherwise modulo 2^width; a forced field keeps its value. A write through an iterator of a connectable array, after any movements from begin or end (also it[d] and reverse iterators), is a write of the element it is at, and pushes the index of that element; a copy of a whole range to begin() or rbegin() gives the array and all arrays connected to it these values. (False: *= of UInt16 fields can be undefined, /= and %= of a negative field by an unsigned operand gives another number, fill does not reach the connected arrays.)", "quantifier": "all pairs of integer types, all values, all networks made by calls; all sizes below 2^64, all sequences of movements, all connected arrays", "why_tests_cant": "The value goes through integral promotion and the usual conversions of all pairs of types; the iterator carries pointer and index that must agree after any movements.", "anchors": ["include/Xsmp/Field.h::SimpleField::operator+=", "include/Xsmp/Field.h::protected_reference", "include/Xsmp/Field.h::protected_iterator", "include/Xsmp/Field.h::SimpleArrayField::begin"]}
{"id": "C108", "title": "Nothing refers to a component that was removed", "statement": "When a program registers in the link registry each reference, subscription and connection it makes, and before deleting a component calls RemoveLinks for it and for every component below (from the bottom up) and removes their own links, then no call ever uses a destroyed component, no reference, event source or output of a remaining component points to a removed one, and all other components and pointers stay as they were. (False of the plain sequence RemoveLinks(x), delete x: subscriptions and references to components below x stay; the second of two inputs of x connected to the same output stays; the links of which x is the source stay and a later RemoveLinks calls the destroyed x; links to x stay in the registry for whatever is created at its address.)", "quantifier": "all trees of components, all sequences of creations, references, subscriptions, connections and removals", "why_tests_cant": "A dangling pointer only shows when it is followed later; which pointers are left depends on the whole history and on the shape of the subtree.", "anchors": ["src/Xsmp/Component.cpp::Component::RemoveLinks", "src/Xsmp/Services/XsmpLinkRegistry.cpp::XsmpLinkRegistry::RemoveLinks", "src/Xsmp/Container.cpp::AbstractContainer::DeleteComponent", "src/Xsmp/EventSource.cpp::AbstractEventSource::RemoveLinks", "include/Xsmp/Reference.h::RemoveLinks"]}
{"id": "C109", "title": "Comparisons of durations compare times", "statement": "The six comparisons of a Duration with another Duration, an integer of any type or a std::chrono::duration (on either side) are those of the two times: exactly one of ==, <, > is true and the others follow from it; a chrono duration in a period that is a whole number of nanoseconds is compared exactly or (when its nanoseconds are no 64-bit number) undefined, one in any other period is compared exactly when the times differ by a nanosecond or more. The literals _ns ... _w are exact multiples. (False: negative durations against UInt64, differences below a nanosecond, hours::max(), NaN, literals from 2^63.)", "quantifier": "all 64-bit durations, all integer types and values, all rational periods and counts, all literals", "why_tests_cant": "Each comparison goes through the usual arithmetic conversions or a duration_cast chosen by the types; there are infinitely many periods.", "anchors": ["include/Xsmp/Duration.h::operator==", "include/Xsmp/Duration.h::operator<", "include/Xsmp/Duration.h::operator<=", "include/Xsmp/Duration.h::operator\"\"_ns"]}
{"id": "C110", "title": "The logger used by several threads behaves as if its calls came one after the other", "statement": "Whatever threads call QueryLogMessageKind, Log, Store and Restore of the logger at the same time, each call has its effect at one moment between its beginning and its end and gives what it gives in the sequence of these effects; a kind returned for a name stands for that name until the table is restored; the entries are handed over in the order of the calls, with simulation times that do not go back, and the times of one entry are of one moment; no calls block each other for ever. (False: a Restore between the search for a name and its addition; a simulation time that advances while an entry is made.)", "quantifier": "any number of threads, every interleaving of their steps and of the advances of the simulation time", "why_tests_cant": "The wrong results need one particular step between two locked parts of a call; tests cannot go through all interleavings.", "anchors": ["src/Xsmp/Services/XsmpLogger.cpp::QueryLogMessageKind", "src/Xsmp/Services/XsmpLogger.cpp::Log", "src/Xsmp/Services/XsmpLogger.cpp::Restore", "src/Xsmp/ThreadSafeData.h::ThreadSafeData"]}
{"id": "C111", "title": "Exceptions of containers, references, services and types say what happened", "statement": "An exception of AddComponent or DeleteComponent of a container, of AddComponent or RemoveComponent of a reference, of a collection, of an event source, of the registration of a factory, of a life cycle operation, of the event manager, of the scheduler, of the time keeper or of the type registry is raised exactly when the call is refused, is of the class of the reason, and what it carries is true: the name of the container or reference, the number of its components, which is its upper limit (or its lower limit), the component, the name that is taken, the source and the sink, the names of the two factories, the state of the component and the one required, the event id and name and the entry point, the cycle time, the time of the event and the current time, the bounds of the simulation time, the names and UUIDs of the types, the literal that has the value. (False: AddComponent(nullptr) ends with std::bad_typeid; the time of a mission or epoch event is not the one given; an enumeration of an impossible size is reported with the kind None.)", "quantifier": "every sequence of calls before (containers, references, factories), every state (others), every argument", "why_tests_cant": "Tests catch an exception by its class in a few cases; what it carries in every state that calls lead to, and that it is raised in exactly those, needs an invariant.", "anchors": ["src/Xsmp/Exception.cpp::throwContainerFull", "src/Xsmp/Exception.cpp::throwInvalidObjectType", "src/Xsmp/Exception.cpp::throwInvalidComponentState", "src/Xsmp/Exception.cpp::throwInvalidSimulationTime", "src/Xsmp/Exception.cpp::throwEntryPointAlreadySubscribed", "src/Xsmp/Exception.cpp::throwTypeAlreadyRegistered", "src/Xsmp/Helper.cpp::TypeName"]}
{"id": "C112", "title": "Exceptions of fields say which index, size or value was refused", "statement": "GetItem, GetValue, SetValue, GetValues and SetValues of arrays and SetValue of a simple field are refused with an exception exactly when the index or the number of values does not fit or the value cannot be stored, and it says so: the size of the array and the index or the number given, the first value that was refused and its index, the kind of the value and the one it had to have. (False: an index of 2^63 or more is reported as a negative number; SetValue of an array raises InvalidFieldValue for a value of another kind, SetValues raises InvalidArrayValue; a null String8 that is refused is read for the message; the kinds are swapped when no value of the kind could be converted.)", "quantifier": "every array and field, every index, every list of values", "why_tests_cant": "The exceptions come from three classes of arrays with fifteen kinds each; that they name the first refused value, whatever the values before it, is a statement about all lists.", "anchors": ["include/Xsmp/Field.h::SimpleArrayField", "src/Xsmp/Publication/Field.cpp::SimpleArrayField::SetValue", "src/Xsmp/Publication/Field.cpp::AnonymousSimpleArrayField::SetValue", "src/Xsmp/Exception.cpp::throwInvalidArrayIndex", "src/Xsmp/Exception.cpp::throwInvalidArrayValue", "src/Xsmp/Exception.cpp::throwInvalidArraySize"]}
{"id": "C113", "title": "Loading a package registers what it provides, once", "statement": "After LoadLibrary of a package has returned, the simulator has the services, factories and types of the package and of the packages it uses, each once, whatever was loaded before, by it or by other simulators, and whichever simulators were destroyed; the other simulators keep what they have. Loading it again changes nothing. When all simulators are gone the packages are as at the start. (False: Finalise is not told which simulator ends and forgets all of them, so that after one was destroyed another one cannot load a package it has, or one that uses it; an Initialise that raised leaves the simulator in the set, so that the next call reports success though services are missing; a simulator initialised by a direct call stays in the set when it ends, and a later one at the same address gets nothing.)", "quantifier": "every set of packages and uses between them, every sequence of creations, loads, additions and destructions of any number of simulators", "why_tests_cant": "The sets of simulators are variables of the program that outlive every simulator; what a load does depends on all that was loaded and destroyed before it, in any order.", "anchors": ["src/xsmp_services.cpp::Initialise_xsmp_services", "src/xsmp_services.cpp::Finalise_xsmp_services", "src-gen/xsmp_event_manager.cpp::Initialise_xsmp_event_manager", "src-gen/xsmp_event_manager.pkg.cpp::Finalise", "examples/project1/src-gen/xsmp_example_project1.cpp::Initialise_xsmp_example_project1", "src/Xsmp/Simulator.cpp::Simulator::LoadLibrary", "src/Xsmp/Simulator.cpp::Simulator::~Simulator"]}
{"id": "C114", "title": "A simulator can be destroyed while the Zulu thread of its scheduler runs", "statement": "Whenever the owner destroys a simulator, whatever the Zulu thread is doing then and in whatever order the steps of the two threads come afterwards, no entry point of a deleted component is called, no component is deleted while its entry point runs, the thread does not use the deleted time keeper and the program does not end; the wait for the thread ends with the entry point that is running. (False: after Abort the destructor does not stop the thread before it deletes the components, so that a component can be deleted while its entry point runs, and the time keeper before the scheduler; a Zulu entry point that calls Exit makes the thread join itself, which aborts, and then the destructor of the scheduler does not join the thread, which ends the program.)", "quantifier": "every number and order of components, every interleaving of the steps of the owner and of the Zulu thread, every sequence of Zulu events", "why_tests_cant": "Whether a component is deleted while its entry point runs depends on the interleaving of two threads; a test sees a few of them and undefined behaviour may go unnoticed.", "anchors": ["src/Xsmp/Simulator.cpp::Simulator::~Simulator", "src/Xsmp/Simulator.cpp::Simulator::Exit", "src/Xsmp/Simulator.cpp::Simulator::Abort", "src/Xsmp/Services/XsmpScheduler.cpp::XsmpScheduler::DoDisconnect", "src/Xsmp/Services/XsmpScheduler.cpp::XsmpScheduler::InternalZuluRun", "src/Xsmp/Services/XsmpScheduler.cpp::XsmpScheduler::~XsmpScheduler"]}
{"id": "C115", "title": "Date-times and durations are read back from their text", "statement": "A date-time or duration printed with a format that the date library can read back, and read with this format from a string or a stream, is the same one; what the output operators print is read back with the default formats; a text that is not a date or a duration is refused; a stream tells when it could not be read. (False: date-times after 2262-04-11 cannot be printed, the shift to the epoch overflows; a text that is not a date gives 1970-01-01 silently; a text that is not a duration reads a variable that was never set.)", "quantifier": "every 64-bit number of nanoseconds, every format, text and stream, and every behaviour of the date library", "why_tests_cant": "The values are 64-bit numbers and the texts are arbitrary; the variable that was never set often holds zero in a test.", "anchors": ["src/Xsmp/DateTime.cpp::DateTime::DateTime", "src/Xsmp/DateTime.cpp::parse", "src/Xsmp/DateTime.cpp::DateTime::format", "src/Xsmp/Duration.cpp::from", "src/Xsmp/Duration.cpp::Duration::format", "include/Xsmp/DateTime.h::DateTime::convert"]}
{"id": "C116", "title": "A breakpoint that was stored is on the disk, and one that is not is noticed", "statement": "When Simulator::Store has returned, the file holds exactly the state that was written, whatever was in it before and whenever the standard library writes its buffer, so that it can be restored. At any time it holds a beginning of the state; a file that was cut off is refused by Restore. When Store raises, the breakpoint that was in the file before is still there. The entry points executed at the end of Store can use the file. (False: on a full device the last bytes are written by the destructor of the stream, which ignores errors, so that Store returns though the file is cut off; the file is emptied when it is opened, so that a Store that raises loses the old breakpoint; the events SMP_LeaveStoring and SMP_EnterStandby come before the file is complete.)", "quantifier": "every state, every way of cutting it into blocks, every time at which the buffer is written, every size of device and buffer, every earlier file", "why_tests_cant": "It depends on full devices, on the sizes of buffers and on when the standard library writes them; a test sees a device with room and a file that was closed.", "anchors": ["src/Xsmp/Simulator.cpp::Simulator::Store", "src/Xsmp/StorageWriter.cpp::createOutputStream", "src/Xsmp/StorageWriter.cpp::StorageWriter::Store", "src/Xsmp/StorageReader.cpp::StorageReader::Restore"]}
{"id": "C117", "title": "Indexing from Python means what it means for a Python list", "statement": "For collections, containers, references and array fields, l[i] in Python gives the element that a Python list would give, also for a negative index, and raises IndexError where a list would; no index leads outside of the sequence. l[name] gives the first element of that name, and KeyError only if there is none. A for loop visits every element once, in order. del l[i] removes position i and nothing else, or raises and changes nothing. array[i] = v changes item i only. (False: GetIndex compares the index before the shift, so that every negative index is refused; del of a reference removes the first occurrence of the component.)", "quantifier": "every sequence that fits in memory, every integer, every name, every lower limit", "why_tests_cant": "The tests of the repository use a few positive indexes; the claim is about every index, including those near the limits of the integer types.", "anchors": ["src/python/ecss_smp.cpp::GetIndex", "src/python/Smp/ICollectionBinding.h::RegisterICollection", "src/python/Smp/IContainerBinding.h::RegisterIContainer", "src/python/Smp/IReferenceBinding.h::RegisterIReference", "src/python/Smp/IArrayFieldBinding.h::RegisterIArrayField", "src/python/Smp/ISimpleArrayFieldBinding.h::RegisterISimpleArrayField"]}
{"id": "C118", "title": "A value passed between Python and a field is the same value or an exception", "statement": "An integer that Python gives to a field of any integer kind, a duration or a date is stored exactly if the kind can hold it, and reads back as the same integer; otherwise an exception is raised. The same holds for truth values, for single characters below U+0100, for texts, for floating point numbers in a Float64, and for the value of another field. An assignment never changes the kind of a field. field += n adds n or raises. Every value of a field has a Python form. (False: a text with U+0000 is silently cut; a number that a Float32 cannot hold is silently rounded, also to infinity, where AnySimple itself refuses it; a text that is not UTF-8 cannot be read; a character field in a condition raises.)", "quantifier": "every kind, every integer, every text, every floating point value, every pair of kinds", "why_tests_cant": "The values and the pairs of kinds are too many to try; the limits of each of ten integer kinds and the conversions of text matter.", "anchors": ["src/python/ecss_smp.cpp::convert", "src/python/Smp/ISimpleFieldBinding.h::RegisterISimpleField", "src/python/Smp/IObjectBinding.h::RegisterIObject", "src/python/Smp/IPropertyBinding.h::RegisterIProperty", "src/Smp/AnySimple.cpp::AnySimple"]}
{"id": "C119", "title": "A call of an operation from Python binds its arguments and returns its outputs as a Python function does", "statement": "When operation(*args, **kwargs) reaches the component, there are not more positional arguments than parameters, every keyword names a parameter not given by position, every parameter that is not only an output has an argument, and the request holds for each parameter the converted value of exactly its argument. Conversely the component is reached whenever this is so and the types accept the values. Otherwise the exception names the reason: too many arguments, an unexpected keyword, multiple values, or a missing argument. The result is None without outputs; otherwise it has an attribute for the return value and for each output, with the value that the component left, and no other. (False: a parameter whose name is a reserved word of Python cannot be given by its Python name; async and await are not treated as reserved words; a missing argument is reported as InvalidParameterType instead of TypeError.)", "quantifier": "every published operation after every sequence of publications, every list of arguments and keywords, every behaviour of the component", "why_tests_cant": "Signatures, mixtures of positional and keyword arguments, and the values are unbounded; tests call a few operations.", "anchors": ["src/python/Smp/IOperationBinding.h::callOperation", "src/python/ecss_smp.cpp::GetPythonName", "src/Xsmp/Publication/Operation.cpp::Invoke", "src/Xsmp/Publication/Request.cpp::SetParameterValue"]}
{"id": "C120", "title": "Run from Python executes for the duration that its arguments add up to", "statement": "sim.Run(nanoseconds, microseconds, ..., weeks) from Python is Simulator::Run of the sum of its amounts in nanoseconds: exactly for whole amounts up to 2^53 ns, within a nanosecond and a part of 2^-48 for any amounts that are not negative, however the compiler contracts the floating point operations. A negative duration raises InvalidEventTime. When one thread uses the simulator the call executes in Standby and is refused in every other state, and leaves nothing behind. (False: the fraction is cut off instead of rounded, Run(seconds=1.001) executes 1000999999 ns; beyond 292 years the conversion is undefined; with a second thread that holds the simulation, Run can return at once and leave an event in the scheduler whose entry point does not exist any more.)", "quantifier": "every eight amounts, every choice of the compiler, every history of the simulator", "why_tests_cant": "Rounding errors depend on the values and accumulate over seven operations; the refused call depends on the interleaving of two threads.", "anchors": ["src/python/Smp/ISimulatorBinding.h::Run", "src/Xsmp/Simulator.cpp::Run", "src/Xsmp/Services/XsmpScheduler.cpp::AddSimulationTimeEvent"]}
{"id": "C121", "title": "The Python class of an object inherits from exactly the interfaces the object implements", "statement": "The Python class made for the type of a simulator object can always be made; isinstance(obj, I) holds for an interface I exactly when the C++ object implements it; the direct bases are the most derived interfaces, each once, and Python looks into a derived interface before its bases. (False for IFactory and for every collection: they are not in the table of interfaces, so their objects appear as plain IObject without GetUuid, CreateInstance, __len__ or __getitem__.)", "quantifier": "every object, whatever set of interfaces it implements", "why_tests_cant": "The number of combinations of interfaces is 2^41; the order of the bases is found by Python's linearisation, which can fail for some combinations of classes.", "anchors": ["src/python/ecss_smp.cpp::IObjectHierarchy", "src/python/ecss_smp.cpp::processHierarchy", "src/python/ecss_smp.cpp::IObjectHook"]}
{"id": "C122", "title": "Attributes and items of simulator objects in Python are the objects of that name", "statement": "object.name in Python is the child, container, reference or referenced component of that name and raises AttributeError when there is none; object[path] is what the path leads to; object.name = value changes the value of that field or property, and of no other, to the converted value, and never stores a misspelt name; object.name += n adds once; source += sink and container += component do not raise. (False: an attribute of a field is the field itself whatever the name, so component.structure.member is component.structure and component.field.anything = value changes the field; a child named like a method of its parent's interfaces is hidden; object[None] dereferences a null pointer; structures and arrays cannot be assigned.)", "quantifier": "every tree of objects, every object in it, every name, every value", "why_tests_cant": "The result depends on the tree, on the interfaces of the object and on the name; a test of a member of a component says nothing about members of fields.", "anchors": ["src/python/Smp/IObjectBinding.h::SetValue", "src/python/Smp/IObjectBinding.h::RegisterIObject", "src/Xsmp/Helper.cpp::Resolve"]}
{"id": "C123", "title": "Deleting a component is safe and complete when its hooks change the container", "statement": "DeleteComponent disconnects and destroys the component, which may make hooks add to and delete from the same container. When it returns, the component and exactly the components that hooks deleted have been destroyed, each once; the container holds the others in their order, then the new ones; the others are as connected as before. When it raises, the component is still in the container and not destroyed. The destructor of a container destroys every component once, last one first. No invalidated iterator is used. (False in full: a hook that deletes an earlier component, or that makes the vector grow, invalidates the iterator of the running call; a destructor that deletes its own component destroys it twice; a DoDisconnect that does so never ends; the lower limit is not kept; a component added while the container is destroyed makes it destroy a component twice; an exception in a destructor ends the program.)", "quantifier": "all containers, limits, capacities, hooks as functions of the state, nesting depths and sequences of calls", "why_tests_cant": "The outcome depends on the position of the components, the capacity of the vector and what the hooks of all components do; undefined behaviour may look right in a test.", "anchors": ["include/Xsmp/Container.h::DeleteComponent", "include/Xsmp/Container.h::~Container", "src/Xsmp/Container.cpp::DeleteComponent", "src/Xsmp/Container.cpp::AddComponent"]}
{"id": "C124", "title": "The type hints written for a simulator are valid Python and describe it", "statement": "generate_python_type_hints writes a file that Python can read and execute. Its class Simulator describes the simulator: every class has as bases interfaces of its object, and all of them that an attribute can show; its attributes are the fields, components, containers, references, operations, properties, event sinks, event sources and entry points of the object, no more and no less, down to the members of structures, with the descriptions. Whatever chain of attributes is declared exists at run time and implements the declared interfaces. (False in full: a component that is not yet published makes it dereference a null pointer; a name that is a keyword of Python or a description that ends in a quote makes a file that cannot be read; IFallibleModel is never shown; members of structures are declared and lead to the structure itself.)", "quantifier": "all trees of objects, with any names, descriptions, sets of interfaces and depths", "why_tests_cant": "The file depends on every object of the simulator and on the set of interfaces of each; whether Python accepts it depends on names, descriptions and the order of bases.", "anchors": ["src/python/Smp/ISimulatorBinding.h::generate", "src/python/Smp/ISimulatorBinding.h::generatePythonTypeHints", "python/xsmp/unittest.py::generateTypeHints"]}
{"id": "C125", "title": "The predefined types and the enumerations of the standard are the same everywhere", "statement": "The constructor of the type registry does not throw. GetType(kind) gives, for each of the sixteen primitive kinds, the primitive type of that kind under its name, and null for every other number, whatever was registered since. Each of the seven enumerations of the standard is registered as an enumeration of four bytes with the names and values of the standard, and keeps them whatever is registered afterwards (literals may be added behind them). A value is valid for one of them exactly when it is one of the standard. The texts that stream operators print and the names that Python shows are those of the literals.", "quantifier": "all kinds, all values, all sequences of calls on the registry after its construction", "why_tests_cant": "The tables are written in three places (registry, stream operators, Python bindings); that they agree for every kind and value, and still do after any registrations, cannot be sampled.", "anchors": ["src/Xsmp/Publication/TypeRegistry.cpp::TypeRegistry", "src/Xsmp/Publication/TypeRegistry.cpp::GetType", "src/Smp/StreamOperators.cpp", "src/python/Smp/PrimitiveTypeKindBinding.h"]}
{"id": "C126", "title": "Factories live as long as the simulator and make instances of their type", "statement": "A factory that is registered belongs to the simulator: it exists until the collection is destroyed and is deleted then, once. A factory with a UUID that is taken is refused with DuplicateUuid. CreateInstance gives null if no factory has the UUID; otherwise what the constructor throws is thrown, an instance with another UUID than that of the factory is destroyed and InvalidFactory is thrown, and else the result is a new instance with that UUID and the given name. (False in full: a factory that is registered a second time is deleted when it is refused, though the collection still uses it; the next CreateInstance and the destructor use the deleted factory.)", "quantifier": "all sequences of making, registering, creating and deleting, all names, UUIDs and callbacks", "why_tests_cant": "Whether a pointer dangles depends on the whole sequence of registrations; an instance of the wrong type only shows with a factory that was given another UUID.", "anchors": ["src/Xsmp/Factory.cpp::Factory::CreateInstance", "src/Xsmp/Factory.cpp::Factory::DeleteInstance", "include/Xsmp/Factory.h::Factory::Create", "src/Xsmp/FactoryCollection.cpp::FactoryCollection::Add", "src/Xsmp/Simulator.cpp::Simulator::CreateInstance"]}
{"id": "C127", "title": "Exceptions of data flow, simulator state, libraries and storage say what happened", "statement": "Connect is refused with InvalidTarget exactly when the roles or types of the fields do not fit, and with FieldAlreadyConnected when they fit and are connected already; GetSource and GetTarget are the fields of the call and nothing was changed. AddModel and AddService raise InvalidSimulatorState exactly outside Building, Connecting and Standby, with the state the simulator is in. LoadLibrary raises LibraryNotFound or InvalidLibrary exactly when something is wrong with the library, with its name, and the exception tells the one cause. A storage that cannot be opened raises CannotStore or CannotRestore. Reading raises exactly when the device fails, the file ends or a read before failed, and a breakpoint that is cut off is told from one that has other contents. (False in full: FieldAlreadyConnected is also raised when only one pair of inner fields is connected or one cannot push; the end of the file is reported as a logical error; a directory that cannot be made raises an exception that is not of the standard; null names and targets are undefined behaviour.)", "quantifier": "all fields, connections and states; all libraries, names and error texts; all files, objects and sequences of reads", "why_tests_cant": "The exception depends on the whole tree of fields and connections, on the state, and on where exactly a file ends or differs; tests look at a few of these.", "anchors": ["src/Xsmp/Exception.cpp::FieldAlreadyConnected", "src/Xsmp/Exception.cpp::InvalidTarget", "src/Xsmp/Exception.cpp::InvalidSimulatorState", "src/Xsmp/Exception.cpp::LibraryNotFound", "src/Xsmp/Exception.cpp::InvalidLibrary", "src/Xsmp/Field.cpp::StructureDataflowField::Connect", "src/Xsmp/Publication/Field.cpp::DataflowField::Connect", "src/Xsmp/Simulator.cpp::Simulator::AddModel", "src/Xsmp/Simulator.cpp::Simulator::LoadLibrary", "src/Xsmp/StorageReader.cpp::StorageReader::Restore", "src/Xsmp/StorageWriter.cpp::createOutputStream"]}
{"id": "C128", "title": "An exception leaves no object behind, and its sender can be used where it is caught", "statement": "When publishing a field, registering a type or building a component raises an exception, the objects made during the call are destroyed, those that were there before stay, and the object GetSender gives still exists. (False in full: the sender of exceptions raised inside the constructor of a published field, of an array or class type or of a field of a component is the object under construction, which is destroyed before the exception is caught; a wrong size of an enumeration is reported without a sender.) When the call ends normally it makes exactly the objects of the field or type.", "quantifier": "all type registries that can be built, all nestings of types, names, fields and memories", "why_tests_cant": "Whether a pointer in a caught exception dangles is not visible when it is not used, and depends on how deep in the tree of types the exception was raised; tests compare messages.", "anchors": ["src/Xsmp/Exception.cpp::Exception::GetSender", "src/Xsmp/Publication/Field.cpp::Field::Create", "src/Xsmp/Publication/Field.cpp::StructureField::StructureField", "src/Xsmp/Publication/Field.cpp::ArrayField::ArrayField", "src/Xsmp/Publication/Publication.cpp::Publication::PublishField", "src/Xsmp/Publication/TypeRegistry.cpp::TypeRegistry::AddType", "src/Xsmp/Publication/Type.cpp::ArrayType::ArrayType", "src/Xsmp/Publication/Type.cpp::ClassType::ClassType", "include/Xsmp/Field.h::GetType", "src/Xsmp/Component.cpp::Component::Component"]}
{"id": "C129", "title": "The run loop keeps simulation time in step with Zulu time", "statement": "While executing at target speed s, the scheduler sets the simulation time to that of a slot no earlier than when the Zulu time since the start of the run has reached the simulation time passed divided by s (up to the rounding of one nanosecond a turn, exactly at speed 1), and no later than that unless it is already late, in which case it sets it at once; lateness is made up for. The target speed kept is between 0.01 and 100, and the computation of the delay has no undefined behaviour.", "quantifier": "all speeds, all runs of any number of turns at any Zulu times, all times at which the waits end", "why_tests_cant": "a test sees a few runs with the timing of one machine; the sum of the delays over runs of any length and the rounding of the quotients need an induction", "anchors": ["src/Xsmp/Services/XsmpScheduler.cpp:XsmpScheduler::_EnterExecuting", "src/Xsmp/Services/XsmpScheduler.cpp:XsmpScheduler::SetTargetSpeed"]}
{"id": "C130", "title": "Operators and assignments on fields and properties in Python act on their current values", "statement": "A Python expression in which simple fields and properties are operands of +, -, *, /, <<, >>, &, ^, |, of comparisons (also !=), of unary operators or of not, and, or has the value it has with the current values of the fields and properties in their place, whichever side they are on and however deep the expression, and raises if and only if that does. component.name op= e stores the result of the operator in the field or raises and changes nothing; nothing else changes. A local name of a field keeps standing for its current value. (False: // % ** raise TypeError; +e of a text does not raise; not/and/or raise for a text; a local name of a field that is assigned with += is rebound and the field is not changed; a property cannot be assigned to a field.)", "quantifier": "all expressions and programs, all values of fields, all behaviours of Python's operators on plain values, all class relations between the operands", "why_tests_cant": "the operators reach each other through the reflected methods of both operands; a test covers a few pairs of operands, not every mixture, nesting and sequence of assignments", "anchors": ["src/python/Smp/ISimpleFieldBinding.h:RegisterISimpleField", "src/python/Smp/IPropertyBinding.h:RegisterIProperty", "src/python/Smp/IObjectBinding.h:SetValue"]}
{"id": "C131", "title": "Restoring a breakpoint leaves the event manager usable, whatever else is going on", "statement": "When Restore of the event manager returns, it holds exactly the events of the breakpoint under their ids and its subscriptions; names and ids correspond, every id of an event is known under its name, no other id is known, and no call reads the name of an event after it was destroyed, also when Restore is called from an entry point that an emission is executing. This holds as well after a Restore that raised (a truncated or foreign file), and for the calls of other threads during a Restore. (False: a file that ends too early leaves the ids referring to destroyed names, so that the next emission reads freed memory and the events of the standard get other ids; an emission or a query of another thread during a Restore reads or registers a destroyed name; the loop of Restore goes through the names without their lock.)", "quantifier": "all interleavings of any number of threads, any nesting of calls from entry points, any breakpoints, cut at any place", "why_tests_cant": "whether a reference dangles depends on the moment at which another thread, or an exception, interrupts Restore; a test sees few of them, and reading freed memory often goes unnoticed", "anchors": ["src/Xsmp/Services/XsmpEventManager.cpp:Restore", "src/Xsmp/Services/XsmpEventManager.cpp:GetEventName", "src/Xsmp/Services/XsmpEventManager.h:_ids", "include/Xsmp/Persist/StdUnorderedMap.h:Restore", "src/Xsmp/ThreadSafeData.h:read"]}
{"id": "C132", "title": "An operation of the simulator that fails does not end the simulation", "statement": "When an operation of the simulator has returned, normally or by an exception, and no other is in progress, the simulator is in Building, Standby or Executing, or was ended by Exit or Abort, and takes exactly the operations its state offers. (False with exceptions: when a component raises during Connect, an entry point during Initialise, or the file cannot be opened or read in Store, Restore and Reconnect, the simulator stays in the state of the transition for ever, and takes no operation but Abort. True for Publish and Configure.)", "quantifier": "every history of calls, at any depth of nesting from subscribers, components and entry points, with or without exceptions", "why_tests_cant": "the histories with nested calls and exceptions at each point are infinitely many, and that no sequence of later calls leads out of a state is a statement about all of them", "anchors": ["src/Xsmp/Simulator.cpp:Connect", "src/Xsmp/Simulator.cpp:Initialise", "src/Xsmp/Simulator.cpp:Store", "src/Xsmp/Simulator.cpp:Restore", "src/Xsmp/Simulator.cpp:Reconnect", "src/Xsmp/Simulator.cpp:EmitGlobalEvent"]}
{"id": "C133", "title": "A scheduler whose Restore failed is as before, or consistent", "statement": "When Restore of the scheduler raises CannotRestore, the scheduler is as it was before, or at least each event in its tables is known and no identifier in use is given out again, so that the simulation can go on. (False: the four members are restored one after the other; a file that ends after the first leaves events in the table that are not known, and the next run raises std::out_of_range; one that ends before the last leaves the old last identifier, and the next event gets the identifier of a pending one.)", "quantifier": "all breakpoints, all schedulers restored into, all places at which the file can end between the members", "why_tests_cant": "a test restores from a few damaged files; what is left depends on the state of both schedulers and on the place of the damage", "anchors": ["src/Xsmp/Services/XsmpScheduler.cpp:Restore", "src/Xsmp/Services/XsmpScheduler.cpp:Execute", "src/Xsmp/Services/XsmpScheduler.cpp:AddEvent", "include/Xsmp/Persist.h:Restore"]}
{"id": "C134", "title": "Durations with floating point operands", "statement": "Comparing a Duration with a float or double compares the two numbers; assigning one, and +=, -=, *=, /= with one, gives the exact result without its fraction, or the behaviour is undefined when that is no duration; a std::chrono::duration with floating point count becomes its whole nanoseconds. (False: the duration itself is rounded to 53 or 24 bits first. Different durations are equal to one double, d += 0.0 and d *= 1.0 change d, d += 0.0 of the maximal duration is undefined, and 1.001 s as a double is cut off to 1000999999 ns. True up to 2^53 ns or 2^24 ns for results the type has; in general < and > are never wrong, and the error of the result is bounded.)", "quantifier": "all 64-bit durations, all floats and doubles including infinities and NaN, all four operations, all periods of whole nanoseconds", "why_tests_cant": "the rounding depends on the magnitudes of both operands; an error of one nanosecond is seen with some of the 2^64 operands only", "anchors": ["include/Xsmp/Duration.h::operator=", "include/Xsmp/Duration.h::operator+=", "include/Xsmp/Duration.h::operator*=", "include/Xsmp/Duration.h::operator==", "include/Xsmp/Duration.h::operator<", "include/Xsmp/Duration.h::operator>"]}
{"id": "C135", "title": "Operators of fields with floating point numbers", "statement": "When a field or the operand has a floating point type, +=, -=, *=, /= give a floating point field the number of its type nearest to the exact result, and an integer field that result without its fraction; ++ and -- change the value by one; the new value reaches the connected fields, and a forced field keeps its value. (False: a float field with a double operand is rounded twice, a float counter stops at 2^24 and a double one at 2^53, a 64-bit integer field changes with += 0.0, and a UInt8 field at 0 wraps with -= 1 but is undefined with -= 1.0.)", "quantifier": "all field and operand types (eight integer types, float, double), all values including infinities and NaN, all networks of connected fields", "why_tests_cant": "each pair of types computes in another format and converts back; the wrong results show for special magnitudes only", "anchors": ["include/Xsmp/Field.h::SimpleField::operator+=", "include/Xsmp/Field.h::SimpleField::operator++", "include/Xsmp/Field.h::SimpleField::SetValue"]}
{"id": "C136", "title": "Python references do not destroy the objects of a simulation", "statement": "Dropping a Python reference to an object of a simulation changes nothing in the simulation, except that dropping the last reference to the simulator destroys it and what is in it, each object once; there is one Python object per object at a time; while the simulator is kept and nothing is deleted, every reference is that of an object that exists. (False of IContainer.GetComponent, IReference.GetComponent, IResolver.ResolveAbsolute and ResolveRelative, ILinkRegistry.GetLinkSources: they name no return value policy, so the reference destroys what it refers to, and the simulator destroys it again. Components of CreateInstance that are added nowhere are never destroyed, and references do not keep the simulator.)", "quantifier": "all programs: any sequence of functions that return objects, assignments, drops, uses, creations, additions to containers and deletions, on simulators and components of any shape", "why_tests_cant": "what a drop destroys depends on how the object was first obtained and on the order in which Python drops its references; a wrong destruction is undefined behaviour that shows later, if at all", "anchors": ["src/python/ecss_smp.cpp::IObjectClass::dealloc", "src/python/ecss_smp.cpp::IObjectClass::init_holder", "src/python/ecss_smp.cpp::IObjectHook", "src/python/Smp/IContainerBinding.h", "src/python/Smp/Services/IResolverBinding.h", "src/python/Smp/ISimulatorBinding.h::createSimulator", "include/Xsmp/Container.h::Container::~Container"]}
{"id": "C137", "title": "Entry points of deleted components are not called", "statement": "The simulator, the scheduler and the event manager call, name and store only entry points that exist: a component can be deleted at any time, once it has taken back its events, its subscriptions and its entry points for the initialisation.", "quantifier": "for all sequences of creations and deletions of components, of calls of the scheduler, of the event manager and of AddInitEntryPoint, made from entry points or from outside, and of the loops that execute entry points", "why_tests_cant": "An entry point that was destroyed is often still readable, and its address is reused only sometimes; the order of deletions, emissions and due events is unbounded.", "anchors": ["src/Xsmp/Services/XsmpScheduler.cpp: RemoveEvent, Execute, ExecuteEvents, ExecuteImmediateEvents, Store", "src/Xsmp/Services/XsmpEventManager.cpp: Subscribe, Unsubscribe, Emit, Store", "src/Xsmp/Simulator.cpp: AddInitEntryPoint, Connect, Initialise", "src/Xsmp/Helper.cpp: SafeExecute", "include/Xsmp/EntryPoint.h: ~EntryPoint"]}
{"id": "C138", "title": "What is connected is disconnected before it is destroyed", "statement": "A component whose DoConnect was called is disconnected before it is destroyed, exactly once, and no component is disconnected that was not connected; each component is destroyed once. So a component can release in DoDisconnect what it acquired in DoConnect.", "quantifier": "for all sequences of calls of the simulator and of its containers, all trees of services and models, and all hooks that return or raise", "why_tests_cant": "The order of additions, deletions, failures of hooks and of calls of the simulator is unbounded, as is the tree; a component that is destroyed connected shows nothing in most runs.", "anchors": ["src/Xsmp/Simulator.cpp: recursive_action, ~Simulator, Connect, Initialise, Store, Restore, Reconnect, Exit, Abort", "src/Xsmp/Container.cpp: DeleteComponent", "include/Xsmp/Container.h: ~Container", "src/Xsmp/Component.cpp: Connect, Disconnect", "include/Xsmp/ComponentHelper.h"]}
{"id": "C139", "title": "Services can be used while components are disconnected", "statement": "DoDisconnect of a component can call the services of the simulator, to take back its subscriptions and events, whether it is disconnected because it is deleted or because the simulation exits.", "quantifier": "for all programs, trees of components and calls of services in DoDisconnect", "why_tests_cant": "It depends on the order of the whole tree, and on each operation of each service; tests exit with hooks that call nothing.", "anchors": ["src/Xsmp/Simulator.cpp: Exit, recursive_action", "src/Xsmp/Component.cpp: Disconnect", "src/Xsmp/Services/XsmpEventManager.cpp: Unsubscribe, Emit", "src/Xsmp/Services/XsmpScheduler.cpp: RemoveEvent, AddSimulationTimeEvent", "src/Xsmp/Services/XsmpLogger.cpp: Log"]}
{"id": "C140", "title": "A Python test has a simulator of its own, in Standby, that does not outlive it", "statement": "With xsmp.unittest.TestCase, every test that begins is given a simulator in Standby state, made by its own setUp. Whether setUp, the test or tearDown raises or not, the simulator is exited and destroyed with all its components before the next test begins, so that no test is executed while the simulator of another one is alive. No exception is lost.", "quantifier": "for all lists of tests, all services and assemblies they load, all calls of the simulator they make, all hooks of the components and all places where an exception is raised", "why_tests_cant": "It is the test framework itself; what a failing setUp, test or tearDown leaves behind is only seen in later tests, and depends on the state of the simulator at that point.", "anchors": ["python/xsmp/unittest.py: TestCase.setUp, TestCase.tearDown, loadServices, loadAssembly, generateTypeHints", "src/Xsmp/Simulator.cpp: ~Simulator, Connect, Exit"]}
{"id": "C141", "title": "Restoring a breakpoint leaves the Zulu events and their thread consistent", "statement": "After Store and Restore of the scheduler, each Zulu event of the file is executed at its Zulu time, a Zulu event that is not in the file is not executed any more, no event of another time scale is executed by the Zulu thread, and neither the Zulu thread nor the run loop uses an event or a number that is not there, whenever Restore is called.", "quantifier": "for all files written by a scheduler, all events of all time scales added, moved, removed and executed before and after, all interleavings of Store and Restore with the Zulu thread, and all values of the Zulu clock", "why_tests_cant": "The Zulu thread runs on the wall clock and concurrently with Restore; what goes wrong appears when the Zulu time of a forgotten event is reached, maybe much later.", "anchors": ["src/Xsmp/Services/XsmpScheduler.cpp: Store, Restore, ExecuteZulu, InternalZuluRun, Execute, AddEvent, RemoveEvent", "include/Xsmp/Persist/StdMap.h: Restore"]}
{"id": "C142", "title": "Hold(false) holds the simulation once, at the next change of simulation time", "statement": "While the simulation is executing, Hold(false) returns, and the simulation is held exactly once, before simulation time changes again: in Standby, at the time of the request. That is so however often, from wherever and at whatever point of the run loop it is called, by entry points, subscribers or other threads; when the simulation has been held, no request is left.", "quantifier": "for all sequences of calls of Hold, Abort, Subscribe and Unsubscribe made by entry points, subscribers of PreSimTimeChange and other threads at any point of the run loop, all numbers of subscribers, and all runs one after the other", "why_tests_cant": "The request is a subscription that another piece of code ends later; what matters is the order of calls by unrelated entry points at the same simulation time, of which there is no bound.", "anchors": ["src/Xsmp/Simulator.cpp: _holdImmediately, Hold, Run", "src/Xsmp/Services/XsmpEventManager.cpp: Subscribe, Unsubscribe, Emit", "src/Xsmp/Services/XsmpScheduler.cpp: _EnterExecuting, _LeaveExecuting, ExecuteEvents", "src/Xsmp/Helper.cpp: SafeExecute"]}
{"id": "C143", "title": "Operations of the simulator may be called by several threads", "statement": "Whatever operations of the simulator are called by whatever threads at whatever times, every change of its state is a documented one: Aborting and Exiting are final, an operation that has started is not interrupted by another one, at most one thread executes the simulation, and a Hold(true) that has returned has held it.", "quantifier": "for all numbers of threads, all sequences of calls of each of them, including calls made by subscribers and entry points at any depth, and all interleavings of their instructions", "why_tests_cant": "The test of the state, the emission of the events and the change of the state are separate instructions; which interleavings of them happen depends on the machine, and the wrong ones need windows of nanoseconds.", "anchors": ["src/Xsmp/Simulator.cpp: Run, Hold, Store, Restore, Reconnect, Initialise, Exit, Abort, EmitGlobalEvent", "include/Xsmp/Simulator.h: _state, _lastGlobalEventId", "src/Xsmp/Services/XsmpScheduler.cpp: _EnterExecuting, _LeaveExecuting"]}
{"id": "C144", "title": "A write that a connected field refuses", "statement": "If a field that a write gets to through the connections refuses the value (an enumeration field refuses what is not one of its literals), the write raises an exception and no field has changed. In any case types, flags and connections stay, and which fields have the new value is determined by the connections.", "quantifier": "for all networks of connected fields without cycle, after all histories of writes, connections and forcing, all fields written, all values of its type and any number of fields that refuse", "why_tests_cant": "The fields updated before the exception depend on the order and on the shape of all the connections, also indirect ones; a test sees one network.", "anchors": ["include/Xsmp/Field.h: SimpleField::SetValue, operator=", "src/Xsmp/Field.cpp: SimpleConnectableField::internal_push, Push, Connect", "src/Xsmp/Publication/Field.cpp: SimpleField::SetValue, isInvalidEnumerationValue"]}
{"id": "C145", "title": "Which fields may be connected", "statement": "Two fields may be connected exactly if they have the same type up to names: the same nesting of arrays and structures, of the same sizes, with the same primitive types at corresponding places. In particular the relation is an equivalence, and fields that differ are refused without a change.", "quantifier": "for all fields, nested at any depth, of any sizes, of all classes of the component framework and of the publication", "why_tests_cant": "The relation is defined by recursion on both fields and by cases on the classes of both; that it is symmetric and transitive for all combinations cannot be listed.", "anchors": ["src/Xsmp/Helper.cpp: AreEquivalent", "src/Xsmp/Field.cpp: Connect", "src/Xsmp/Publication/Field.cpp: DataflowField::Connect, AnonymousSimpleArrayField::GetType"]}
{"id": "C146", "title": "Several Python threads may use one simulation", "statement": "Operations of a simulation called by several Python threads act one after the other, so that every change of its state is a documented one and at most one thread executes it; and a thread that executes the simulation can be made to hold by another one.", "quantifier": "for all numbers of Python threads, all sequences of calls of each of them, whatever hooks, subscribers and entry points call, and all ways in which the interpreter lock passes from one to the other", "why_tests_cant": "When the interpreter gives its lock to another thread depends on times and on the machine; a test that a run is never interrupted would not end.", "anchors": ["src/python/Smp/ISimulatorBinding.h: Run, Hold, Exit, Abort", "src/python/ecss_smp.cpp", "src/Xsmp/Simulator.cpp: Run, Hold", "src/Xsmp/Services/XsmpScheduler.cpp: _EnterExecuting"]}
{"id": "C147", "title": "Fields written by several threads", "statement": "Fields may be written by several threads at the same time (handlers of global events run in the simulation thread outside the scheduler's lock, Zulu entry points in a thread of their own, and the application may have more): when the writes have returned, connected inputs have the value of their output, no increment is lost, and fields that are not connected do not disturb each other.", "quantifier": "for all networks of connected fields, all numbers of threads, all assignments of each and all interleavings of their instructions", "why_tests_cant": "The wrong interleavings have windows of a few instructions between the change of a value and its push.", "anchors": ["include/Xsmp/Field.h: SimpleField::SetValue, operator=, operator++, operator+=", "src/Xsmp/Field.cpp: SimpleConnectableField::internal_push", "src/Xsmp/Services/XsmpEventManager.cpp: Emit", "src/Xsmp/Services/XsmpScheduler.cpp: ExecuteZulu, _EnterExecuting"]}
{"id": "C148", "title": "Entry points that the scheduler executes write fields one after the other", "statement": "Entry points that the scheduler executes, of simulation time in one thread and of Zulu time in another, never disturb each other's writes of fields: whatever the interleaving, the fields end up as if the entry points had been executed one after the other, in the order in which they were started. So connected inputs have the value of their output, and no increment is lost; and an entry point that has started comes to its end.", "quantifier": "for all networks of connected fields without cycle, all entry points (as sequences of assignments and compound assignments), all numbers of threads and all interleavings", "why_tests_cant": "Which thread gets the mutex when, and where it is interrupted, is up to the operating system.", "anchors": ["src/Xsmp/Services/XsmpScheduler.cpp: Execute, ExecuteZulu", "src/Xsmp/Services/XsmpScheduler.h: _execMutex", "include/Xsmp/Field.h: SimpleField::SetValue", "src/Xsmp/Field.cpp: internal_push", "src/Xsmp/Services/XsmpEventManager.cpp: Emit"]}
{"id": "C149", "title": "Event sinks called from Python", "statement": "sink.Notify(sender, arg) and sink(sender, arg) call the callback of the sink with the value that arg stands for, in the C++ type of the sink; an argument that stands for no value of the kind of the sink is refused and the callback is not called.", "quantifier": "for all sinks (type, kind, with or without argument), all Python values and all contents of memory", "why_tests_cant": "Fourteen kinds times all Python values; the tests call sinks without argument only.", "anchors": ["src/python/Smp/IEventSinkBinding.h: NotifyEventSink", "src/python/ecss_smp.cpp: convert", "include/Xsmp/EventSink.h: EventSink::Notify", "src/Xsmp/EventSink.cpp: EventSink<void>::Notify"]}
{"id": "C150", "title": "Connected arrays through any history", "statement": "Through any sequence of SetValue, SetValues, element writes, Connect, Disconnect and Push, exceptions included, an array of simple items keeps its size, its kind and flags; its elements are always values of the item kind; it is connected at most once to another array, never to itself, only from an output to an input of the same size. A write reaches all the connected arrays or none.", "quantifier": "for all sets of arrays, all sequences of calls, all values", "why_tests_cant": "Unbounded sequences of calls on any number of arrays; the tests connect two arrays of the same type.", "anchors": ["include/Xsmp/Field.h: SimpleArrayField, protected_reference", "src/Xsmp/Field.cpp: FieldHelper::Connect, FieldHelper::Push, SimpleArrayConnectableField::internal_push", "src/Xsmp/Publication/Field.cpp: SimpleArrayField::SetValue"]}
{"id": "C151", "title": "State files of any contents", "statement": "Whatever bytes a state file has (damaged, or written by something else): when Restore accepts them, they are exactly what Store writes for the restored values, the values can be stored and restored again, and nothing after the part that was read matters; when it does not, no variable has grown beyond what the file has data for.", "quantifier": "for all types supported by Persist, all previous values and all sequences of bytes", "why_tests_cant": "All byte sequences; the tests restore only what they stored.", "anchors": ["include/Xsmp/Persist.h: Store, Restore, Helper", "include/Xsmp/Persist/StdString.h: Helper::Restore", "include/Xsmp/Persist/StdVector.h: Helper::Restore", "include/Xsmp/Persist/StdSet.h: Helper::Restore", "include/Xsmp/Persist/StdMap.h: Helper::Restore", "include/Xsmp/Persist/StdUnorderedSet.h: Helper::Restore", "src/Xsmp/StorageReader.cpp: StorageReader::Restore"]}
{"id": "C152", "title": "Uuids in Python", "statement": "A Uuid made in Python from a text is the one C++ makes from it, or is refused; Uuids in Python are values: two of them are equal exactly if they are the same Uuid, all their parts can be read and written, and writing one changes no other, nor the predefined ones.", "quantifier": "for all texts, all Uuids and all sequences of operations of a Python program on them", "why_tests_cant": "All texts and histories; the tests only pass Uuids from literals to the simulator.", "anchors": ["src/python/Smp/UuidBinding.h: RegisterUuid", "src/Smp/Uuid.cpp: Uuid::Uuid", "src/python/Smp/IComponentBinding.h: GetUuid", "src/python/Smp/IFactoryBinding.h: GetUuid", "src/python/Smp/Publication/ITypeBinding.h: GetUuid"]}
{"id": "C153", "title": "Exceptions of refused writes name the field that refused", "statement": "When a write or a push ends with an exception because the field written, or a field it is pushed to through any number of connections, refuses the value, the exception says which field refused and which value: its sender is the first field that refuses, in the order of the connections.", "quantifier": "for all fields, all connections between them (also with cycles, for what the exception says), all values and all histories", "why_tests_cant": "All networks and values; the tests write single fields.", "anchors": ["src/Xsmp/Publication/Field.cpp: SimpleField::SetValue", "include/Xsmp/Field.h: SimpleField::SetValue, SetValue(const T&)", "src/Xsmp/Field.cpp: SimpleDataflowField::Push, internal_push", "src/Xsmp/Exception.cpp: throwInvalidFieldValue", "src/Smp/AnySimple.cpp: throwInvalidAnyType"]}
{"id": "C154", "title": "Exceptions of the simulator in Python", "statement": "An exception that a function of the simulator raises reaches Python as an exception that `except X` catches, for each class X of the standard, exactly if C++ would catch it as X, with name, description and message in its text; exceptions that are none of the standard are caught by no class of the standard.", "quantifier": "for all classes that the library raises, all exceptions of users, all names, descriptions and messages", "why_tests_cant": "All 46 classes, every user class deriving from them, and every text; the tests raise a handful.", "anchors": ["src/python/ecss_smp.cpp: register_exception, SMP_EXCEPTION", "src/Xsmp/Exception.cpp: Exception, the exception classes, throwException, throwIncompatibleType"]}
{"id": "C155", "title": "Operators of fields of truth values and characters", "statement": "The operators of a Bool field act as logical operations with a Bool operand, and with a number make the field true exactly if the result of the operation is not 0; those of a Char8 field act on the code of the character modulo 256. The new value reaches the connected fields that are not forced; a forced field keeps its value. (False: -- makes a false field true, &= with an even number clears a field, ^= with any number but 0 and 1 sets it, and >>= and /= of a character from 128 on act on a negative number; a NaN makes every field true, and a result that no character has is undefined.)", "quantifier": "all truth values, all characters, all integer and floating point types and values of the operand, all networks made by calls", "why_tests_cant": "All operand types and values: promotion to int and the conversion back decide, and the tests have no such fields.", "anchors": ["include/Xsmp/Field.h::SimpleField::operator+=", "include/Xsmp/Field.h::SimpleField::operator++", "include/Xsmp/Field.h::SimpleField::operator&=", "include/Xsmp/Field.h::SimpleField::SetValue"]}
{"id": "C156", "title": "An event source used by several threads", "statement": "Emissions of an event source may overlap in several threads: each notifies exactly the sinks that are subscribed, in the order of their addresses, each once, and it ends when its thread has returned from as many sinks, whatever the other threads emit meanwhile; no emission goes on from an erased element as long as no sink is unsubscribed while it is notified. (False when a thread unsubscribes the sink at which the emission of another is, by Unsubscribe or RemoveLinks: undefined behaviour, also when the sink is subscribed again at once. The source has no lock.)", "quantifier": "all numbers of threads, all histories and interleavings of Subscribe, Unsubscribe, RemoveLinks, Emit, returns and exceptions of sinks", "why_tests_cant": "The interleavings of threads are not enumerable by tests; a dangling iterator of a std::set often still reads the old node.", "anchors": ["src/Xsmp/EventSource.cpp::AbstractEventSource::DoEmit", "src/Xsmp/EventSource.cpp::AbstractEventSource::Unsubscribe", "src/Xsmp/EventSource.cpp::AbstractEventSource::RemoveLinks", "include/Xsmp/EventSource.h::AbstractEventSource"]}
{"id": "C157", "title": "Simulators that have only some of the standard services", "statement": "No null pointer to a standard service is followed between the construction of a simulator and Exit, whatever users call from the main program, from hooks and from entry points, exactly when the services present work together: the event manager comes with the logger; the scheduler and the time keeper come together, with the event manager and the resolver; the link registry is free. (False of the other sets, although each service has its own package: a time keeper or a scheduler without event manager cannot be connected, a scheduler without logger or time keeper cannot be run, one without resolver cannot be restored, an event manager without logger cannot emit an event to which an entry point is subscribed, and a time keeper without scheduler cannot change its time.)", "quantifier": "all 64 sets of standard services; all sequences of calls, nested in hooks and entry points to any depth, with exceptions of entry points and turns of the Zulu thread", "why_tests_cant": "The tests of the services load them all; which of the pointers is followed in which of the sets depends on histories of calls, of which there are infinitely many.", "anchors": ["src/Xsmp/Helper.cpp::SafeExecute", "src/Xsmp/Services/XsmpTimeKeeper.cpp::XsmpTimeKeeper::DoConnect", "src/Xsmp/Services/XsmpTimeKeeper.cpp::XsmpTimeKeeper::SetSimulationTime", "src/Xsmp/Services/XsmpScheduler.cpp::XsmpScheduler::DoConnect", "src/Xsmp/Services/XsmpScheduler.cpp::XsmpScheduler::_EnterExecuting", "src/Xsmp/Services/XsmpEventManager.cpp::XsmpEventManager::Emit", "src/Xsmp/Simulator.cpp::Simulator::EmitGlobalEvent", "include/Xsmp/Persist/SmpIObject.h::Helper"]}
{"id": "C158", "title": "Connections that change while values are pushed", "statement": "A push of an output writes exactly the inputs that were connected when it began, in the order of their connection, each once, and ends after as many steps, while other threads push the same output and connect further inputs; what it has written is a beginning of them also when an input raises an exception. No null pointer is followed as long as no input is disconnected while a push goes on. (False when an input is disconnected by Disconnect or RemoveLinks in the middle of a push: the loop keeps its end, and follows the null pointer that the collection returns beyond its size, also if the input was written before; and if an input is connected again meanwhile, another one is skipped.)", "quantifier": "all numbers of connected inputs and of threads, all interleavings of Connect, Disconnect, the steps of pushes and exceptions of inputs", "why_tests_cant": "The disconnection must fall between two steps of a loop of another thread, or be made by an input that is written; the interleavings cannot be enumerated.", "anchors": ["src/Xsmp/Field.cpp::SimpleConnectableField::internal_push", "src/Xsmp/Field.cpp::InputFieldCollection::at", "src/Xsmp/Field.cpp::InputFieldCollection::end", "src/Xsmp/Field.cpp::FieldHelper::Connect", "src/Xsmp/Field.cpp::FieldHelper::Disconnect", "include/Xsmp/Field.h::InputFieldCollection"]}
{"id": "C159", "title": "Assignments of durations with integers", "statement": "=, +=, -=, *=, /=, %=, ++ and -- of a Duration with an operand of any integer type give the exact result (the quotient rounded to zero and the remainder that belongs to it), or are undefined when the result (or quotient) is no 64-bit number or the divisor is zero, also in sequences; quotient and remainder give back the duration, and what was added is subtracted again. &=, |=, ^= act on the bits and are never undefined; <<= multiplies and >>= divides by a power of two. (False: with an operand of type UInt64, such as a size_t, the duration becomes unsigned. += , -= and *= then wrap without being undefined, but a negative duration divided by 2 or more becomes positive, and its remainder is right only for powers of two that divide it. <<= of a negative duration is undefined and can make one negative, and >>= rounds down where /= rounds to zero.)", "quantifier": "all 64-bit durations, all eight integer types and their values, all operators, all sequences of statements", "why_tests_cant": "2^64 durations by 2^64 operands by eight types; the conversions that are chosen depend on the type, and the wrong results on the signs.", "anchors": ["include/Xsmp/Duration.h::operator=", "include/Xsmp/Duration.h::operator/=", "include/Xsmp/Duration.h::operator%=", "include/Xsmp/Duration.h::operator<<=", "include/Xsmp/Duration.h::operator>>=", "include/Xsmp/Duration.h::operator&=", "include/Xsmp/Duration.h::operator++"]}
{"id": "C160", "title": "Breakpoints stored while another one is", "statement": "When Store has returned, and an entry point of SMP_EnterStandby has itself called Store (the simulator is in Standby then), each file holds a state that was stored, the last one. (True for different files, at any depth of nesting, whenever the standard library writes its buffers; and for the same file if the states are the same, or the outer one was complete in the file. False otherwise: the writer of the outer Store is destroyed after the event, and writes the rest of its buffer over the file of the inner one. If nothing was written before, the file holds the older state, followed by the end of the newer one if that is longer; else it holds a mixture of both, or zeros.)", "quantifier": "all states, all sizes, all times at which buffers are written, all depths of nesting with different files", "why_tests_cant": "What the file holds depends on the size of the state relative to the buffer of the standard library, and on what has changed between the two Stores.", "anchors": ["src/Xsmp/Simulator.cpp::Simulator::Store", "src/Xsmp/StorageWriter.cpp::StorageWriter::StorageWriter", "src/Xsmp/StorageWriter.cpp::createOutputStream", "src/Xsmp/StorageWriter.cpp::StorageWriter::Store"]}
{"id": "C161", "title": "Unchecked accesses to fixed-size strings and searches in them", "statement": "A String<N> that holds a text behaves as that text when its characters are read and written with [], front() and back(), and when it is searched: each of find, rfind, find_first_of, find_last_of, find_first_not_of, find_last_not_of, for a view, a character, a C string or counted bytes, gives the soonest hit on the side of the position that is searched, or npos if there is none; substr gives the part, or an exception beyond the end. (True for all searches and parts, for reads up to the size, and for writes below it. False at the size and beyond: a character written on the terminator makes what an earlier, longer text has left behind it part of the text, and leaves a full string without terminator, so that size() reads past the buffer; back() of an empty string is undefined.)", "quantifier": "all capacities, all texts, all bytes behind the terminator, all positions, all arguments", "why_tests_cant": "The result of a write depends on the whole content of the buffer behind the terminator, and of a search on all positions and overlaps; samples show only some of them.", "anchors": ["include/Xsmp/String.h::String::operator[]", "include/Xsmp/String.h::String::front", "include/Xsmp/String.h::String::back", "include/Xsmp/String.h::String::substr", "include/Xsmp/String.h::String::find", "include/Xsmp/String.h::String::rfind", "include/Xsmp/String.h::String::find_first_of", "include/Xsmp/String.h::String::find_last_not_of"]}
{"id": "C162", "title": "Arrays assigned to array fields as a whole", "statement": "A field of an array type to which an array is assigned, and that is read as an array afterwards, gives the array that was assigned, and so do the fields connected to its elements. (True at any depth when the connections have no cycle, the values fit the fields they get to, no element is forced and none is connected, directly or through others, to another element. In general every field has the value of the last element that gets to it; forced elements keep theirs. False when an element is connected to one before it: the assignment of [5, 6] gives [6, 6].)", "quantifier": "all histories of the fields, all arrays of arrays, all values, all connections without cycle", "why_tests_cant": "The result depends on all connections among elements, on what is forced, and on the order in which elements are written, at any depth of nesting.", "anchors": ["include/Xsmp/Field.h::ArrayField::operator=", "include/Xsmp/Field.h::ArrayField::operator T", "include/Xsmp/Field.h::SimpleField::SetValue", "src/Xsmp/Field.cpp::SimpleDataflowField::internal_push"]}
{"id": "C163", "title": "The moving average of the scheduler", "statement": "After clear() and any samples, GetAverage() is the mean of the last twenty samples, or of all if there are less, rounded once; it is zero if there is none, and what was there before clear() does not matter. (True as long as the sums of up to 21 samples that follow each other are numbers of type double, for instance for whole numbers up to 2^48. False otherwise: rounding errors of the running sum stay in it, so that after one sample of 2^53 the average of any number of ones is zero.)", "quantifier": "all states before, all numbers of samples, all samples", "why_tests_cant": "The ring of samples has to agree with the samples given for every number of them, and the error of the sum shows only for samples of different sizes.", "anchors": ["src/Xsmp/Services/XsmpScheduler.cpp::XsmpScheduler::MovingAverage::AddSample", "src/Xsmp/Services/XsmpScheduler.cpp::XsmpScheduler::MovingAverage::GetAverage", "src/Xsmp/Services/XsmpScheduler.cpp::XsmpScheduler::MovingAverage::clear"]}
{"id": "C164", "title": "Fields of a component found by their path", "statement": "GetField of a component, with what follows the component's path and a dot in the path of one of its fields, gives this field, at any depth; with a path without '..' it gives nothing but fields of the component, and with any path nothing but fields. (False for items of arrays made by PublishArray, whose path has not the name of the array. With '..' the path is resolved from the parent of the component, so that a component without any field gives fields of other components instead of InvalidFieldName.)", "quantifier": "all trees of components and fields of any depth, all components, all fields, all paths", "why_tests_cant": "Trees of fields are unbounded in depth and width, and paths are arbitrary strings.", "anchors": ["src/Xsmp/Publication/Publication.cpp::Publication::GetField", "src/Xsmp/Helper.cpp::Resolve", "src/Xsmp/Helper.cpp::GetPath"]}
{"id": "C165", "title": "Parameters of an operation found by their names", "statement": "After any calls on the publication, the parameters of an operation and its return value have names that differ from each other, and GetParameter with a name gives the one of this name, or null if there is none. (With a null pointer, the behaviour is undefined for every operation with a return value, and null is given for all others.)", "quantifier": "all sequences of calls on the type registry and the publication, all operations, all names", "why_tests_cant": "The sequences of publications are unbounded, with repeated and refused ones among them.", "anchors": ["src/Xsmp/Publication/Operation.cpp::Operation::GetParameter", "src/Xsmp/Publication/Operation.cpp::Operation::PublishParameter"]}
{"id": "C166", "title": "Ancestors of objects", "statement": "IsAncestor holds exactly if both objects exist and the first is the second or is reached from it by GetParent; it is an order, in which any two ancestors of an object are comparable; the ancestors are the objects that contain the object in the tree. GetParentOfType gives the nearest ancestor of the type (the object itself, if it has it), and null exactly if there is none. (False below arrays made by PublishArray: the array is not an ancestor of its items.)", "quantifier": "all trees of objects, all pairs of objects and null pointers, all types", "why_tests_cant": "The depth of trees is unbounded, and the claims are about all ancestors at once.", "anchors": ["src/Xsmp/Helper.cpp::IsAncestor", "include/Xsmp/Helper.h::GetParentOfType"]}
