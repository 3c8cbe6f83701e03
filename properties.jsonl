{"id": "C01", "title": "The clock never runs backwards", "statement": "Whatever process-interaction calls are made, and by whom, the simulation clock after any number of scheduler steps is at least what it was before, and no pending event is ever earlier than the clock.", "quantifier": "every history of API calls (activate, hold, passivate, cancel, standby, interrupt, resume, request, release, wait, set, trigger, set_capacity, enter, leave, run...) interleaved with scheduler steps, any components, any times and priorities", "why_tests_cant": "Time travel appears only for particular interleavings of calls; a test fixes one schedule, the claim is about all of them.", "anchors": ["salabim/salabim.py:Environment.step", "salabim/salabim.py:Component._reschedule", "salabim/salabim.py:Component._push", "salabim/salabim.py:Environment.run"]}
{"id": "C02", "title": "Events happen in time, then priority, then FIFO (urgent: LIFO) order", "statement": "The component that becomes current next is the one whose pending event has the smallest (time, priority); among equal time and priority every urgent event precedes every non-urgent one, urgent events come last-in-first-out, non-urgent ones first-in-first-out. The priority and the urgency of an event are those given in the call (hold, activate, creation, resume, remaining_duration, request, wait, from_store, to_store, run) that made it; a component that is waked up by another one gets a non-urgent event now with priority 0.", "quantifier": "every event list reachable by any sequence of scheduling and cancelling calls", "why_tests_cant": "Tie-breaking depends on the complete insertion history, including removals from the middle of the heap.", "anchors": ["salabim/salabim.py:Component._push", "salabim/salabim.py:Component._remove", "salabim/salabim.py:Environment.step"]}
{"id": "C03", "title": "A component has at most one pending event, and it has one exactly when it should", "statement": "At any moment each component occurs at most once in the list of future events; a component that is passive, data, standby, interrupted or current has no pending event; a component that is scheduled, requesting or waiting until a finite time has exactly one, at its scheduled_time, and none if that is inf; a component with a pending event is scheduled, requesting or waiting. Not so after request() without arguments, a request of a preemptive resource that the component claims already, or setting remaining_duration of a data component.", "quantifier": "every history of process-interaction calls that all return normally, other than the exceptions mentioned; request, wait and stores not by main; run only by main", "why_tests_cant": "A stale or duplicate event only shows up when two specific calls overlap (e.g. activate of a component that waits with a time-out).", "anchors": ["salabim/salabim.py:Component._push", "salabim/salabim.py:Component._remove", "salabim/salabim.py:Component._reschedule", "salabim/salabim.py:Component.activate", "salabim/salabim.py:Component.hold", "salabim/salabim.py:Component.interrupt", "salabim/salabim.py:Component.cancel", "salabim/salabim.py:Component.standby"]}
{"id": "C04", "title": "Scheduling in the past is refused", "statement": "hold, activate, creation, run, remaining_duration and resume that ask for a moment before now raise ValueError; with cap_now set they are executed at now instead; in the same way request, wait, from_store and to_store with a fail moment before now raise unless honored immediately or cap_now is set. A call that does not raise never schedules before now: the component is scheduled for the moment asked for or, capped, for now.", "quantifier": "every call with a time argument, every clock value, every state of the component", "why_tests_cant": "There is no finite list of offending times; the check must be on every path.", "anchors": ["salabim/salabim.py:Component._reschedule", "salabim/salabim.py:Component.hold", "salabim/salabim.py:Component.activate", "salabim/salabim.py:Environment.run"]}
{"id": "C05", "title": "A refused call leaves the model as it was", "statement": "If a queue operation raises (queue full, already in the queue, not in the queue...), or interrupt, resume, passivate, standby, setting remaining_duration, request, wait, from_store, to_store or hold is refused because of the status of the component (or hold by the current or a passive component because of the time), the components, the event list and the queues are exactly as before the call. This is not so for hold of a scheduled component and activate for a moment in the past: the pending event is lost, or the status changed.", "quantifier": "every state and every offending argument", "why_tests_cant": "Tests check that the exception is raised, rarely that nothing else moved, and never for all states.", "anchors": ["salabim/salabim.py:Component.hold", "salabim/salabim.py:Component._reschedule", "salabim/salabim.py:Component.enter", "salabim/salabim.py:Qmember.insert_in_front_of"]}
{"id": "C06", "title": "Interrupting and resuming preserves the remaining duration", "statement": "A component that held for d and is interrupted and resumed any number of times (nested interrupts included) becomes current after having spent exactly d uninterrupted; while its interrupt level is positive it never becomes current; remaining_duration() is d minus the time spent at any moment.", "quantifier": "every sequence of interrupt/resume calls at any moments, any nesting depth, resume(all=True) or not, any d >= 0, any component but main, whatever else happens in the model as long as no other call concerns the component (such as activate, cancel, or preempting a resource it claims) and calls do not raise", "why_tests_cant": "Needs an induction over the interrupt history.", "anchors": ["salabim/salabim.py:Component.interrupt", "salabim/salabim.py:Component.resume", "salabim/salabim.py:Component.remaining_duration"]}
{"id": "C07", "title": "cancel and termination clean up", "statement": "After cancel, or when a process ends, the component is data, has no pending event, claims nothing from any resource, waits in no request, wait, from_store or to_store queue, and the claimed quantities of the resources are lowered by exactly what it claimed.", "quantifier": "every reachable state and every component in any status", "why_tests_cant": "Leaks appear only for rare combinations of status and claims.", "anchors": ["salabim/salabim.py:Component.cancel", "salabim/salabim.py:Environment._terminate", "salabim/salabim.py:Component._check_fail", "salabim/salabim.py:Component.release"]}
{"id": "C08", "title": "Standby components get a turn after every event", "statement": "If no component uses skip_standby, then after each processed event every component that was in standby becomes current once, in the order in which they went into standby, before the next event is taken from the event list.", "quantifier": "every set of standby components and every interleaving", "why_tests_cant": "Fairness statement over unbounded executions.", "anchors": ["salabim/salabim.py:Environment.step", "salabim/salabim.py:Component.standby"]}
{"id": "C09", "title": "Status transitions follow the documented table", "statement": "hold, passivate, activate, interrupt, resume, standby, cancel, request, wait move a component from each of the eight statuses to the documented status, or raise for the documented illegal ones (e.g. a data component cannot hold, only scheduled-like components can be interrupted).", "quantifier": "every call, every status, every component", "why_tests_cant": "Cross product of calls, statuses and list memberships, in every reachable state.", "anchors": ["salabim/salabim.py:Component.activate", "salabim/salabim.py:Component.hold", "salabim/salabim.py:Component.passivate", "salabim/salabim.py:Component.interrupt", "salabim/salabim.py:Component.resume", "salabim/salabim.py:Component.cancel", "salabim/salabim.py:Component.standby"]}
{"id": "C10", "title": "run(till) stops exactly at till", "statement": "run(till=t) (or duration) with an otherwise arbitrary model returns with the clock at t if the main event is the last at that time, and no event later than t (or at t with a priority value higher than the run priority) has been executed.", "quantifier": "every event list and every set of processes", "why_tests_cant": "Quantifies over all models.", "anchors": ["salabim/salabim.py:Environment.run", "salabim/salabim.py:Environment.step"]}
{"id": "C11", "title": "A queue is a faithful ordered list", "statement": "Entering at head, tail, in front of, behind, sorted on priority and leaving act on the queue exactly as the corresponding insertion into / deletion from a list; forward and backward traversal, head, tail, successor, predecessor, indexing, index and count agree with that list.", "quantifier": "every sequence of queue operations on any number of queues and components", "why_tests_cant": "Pointer-structure corruption shows up only for particular operation sequences.", "anchors": ["salabim/salabim.py:Qmember.insert_in_front_of", "salabim/salabim.py:Component.enter", "salabim/salabim.py:Component.leave", "salabim/salabim.py:Queue.head", "salabim/salabim.py:Queue.tail", "salabim/salabim.py:Queue.__getitem__", "salabim/salabim.py:Queue.__reversed__"]}
{"id": "C12", "title": "Priorities are kept sorted and ties are FIFO", "statement": "A queue that is filled by enter_sorted/enter/priority() only is always non-decreasing in priority, and enter_sorted puts a component behind all present ones of the same priority.", "quantifier": "every sequence of enter, enter_sorted, leave, and priority updates", "why_tests_cant": "Ordering depends on all earlier priorities.", "anchors": ["salabim/salabim.py:Component.enter_sorted", "salabim/salabim.py:Component.enter", "salabim/salabim.py:Component.priority"]}
{"id": "C13", "title": "Queue accounting", "statement": "number_of_arrivals minus number_of_departures equals the length gained since the statistics were reset; len(q) always equals the value of q.length() and the number of components obtained by iterating.", "quantifier": "every history of queue operations", "why_tests_cant": "An off-by-one in any single path is invisible unless that path is hit.", "anchors": ["salabim/salabim.py:Qmember.insert_in_front_of", "salabim/salabim.py:Component.leave", "salabim/salabim.py:Queue.reset_monitors", "salabim/salabim.py:Queue.__len__"]}
{"id": "C14", "title": "Queue capacity is never exceeded by entering", "statement": "enter & friends never make the length exceed the capacity: they raise QueueFullError and then leave the queue, the component and the statistics untouched; they succeed whenever there is room.", "quantifier": "every capacity, every history including capacity changes", "why_tests_cant": "Boundary condition for every length.", "anchors": ["salabim/salabim.py:Qmember.insert_in_front_of", "salabim/salabim.py:Queue.set_capacity"]}
{"id": "C15", "title": "Membership is consistent", "statement": "A component is in a queue exactly when the queue is among the component's queues, it is there at most once, entering a queue twice and leaving a queue one is not in raise and change nothing.", "quantifier": "every history of queue operations over any queues", "why_tests_cant": "Two data structures (the component's dictionary and the queue's chain) have to agree at all times.", "anchors": ["salabim/salabim.py:Component.enter", "salabim/salabim.py:Component.leave", "salabim/salabim.py:Component._member", "salabim/salabim.py:Component._checkinqueue", "salabim/salabim.py:Component._checknotinqueue"]}
{"id": "C16", "title": "Iterating over a queue while it is changed", "statement": "A for-loop over a queue visits every component that stays in the queue during the loop exactly once, never visits a component that left before its turn, and also visits components that entered during the loop.", "quantifier": "every interleaving of loop steps with enter/leave calls of the loop body", "why_tests_cant": "The loop body may be any program.", "anchors": ["salabim/salabim.py:Queue.__iter__", "salabim/salabim.py:Queue.__reversed__"]}
{"id": "C17", "title": "Little's law on the statistics of a queue", "statement": "The time integral of q.length() equals the sum of the stays of the components that left (as tallied in q.length_of_stay) plus the time spent so far by those present.", "quantifier": "every history of enter/leave at any moments", "why_tests_cant": "Relates three statistics over complete histories.", "anchors": ["salabim/salabim.py:Component.leave", "salabim/salabim.py:Qmember.insert_in_front_of", "salabim/salabim.py:Monitor.tally", "salabim/salabim.py:Monitor.mean"]}
{"id": "C18", "title": "Level monitor: value at a time", "statement": "m(t) for t between the start and now is the value last tallied at or before t, off periods excluded; several tallies at the same moment count as the last one.", "quantifier": "every tally history and every t", "why_tests_cant": "Needs all histories, including ties and monitoring switched off and on.", "anchors": ["salabim/salabim.py:Monitor.__call__", "salabim/salabim.py:Monitor.tally", "salabim/salabim.py:Monitor.monitor"]}
{"id": "C19", "title": "Level monitor: duration weighted statistics", "statement": "The durations of a level monitor add up to the time it has been on, duration()+duration_zero.. agree, and mean() is the time integral of the value divided by that duration.", "quantifier": "every tally history and query time", "why_tests_cant": "Property of all step functions.", "anchors": ["salabim/salabim.py:Monitor._xweight", "salabim/salabim.py:Monitor.mean", "salabim/salabim.py:Monitor.duration", "salabim/salabim.py:Monitor.weight"]}
{"id": "C20", "title": "stats_only monitors report the same statistics", "statement": "A monitor with stats_only=True reports the same number of entries, weight, mean, standard deviation, minimum and maximum (with and without zeros) as one that stores all the tallies.", "quantifier": "every sequence of (value, weight) tallies and reset points", "why_tests_cant": "Algebraic identity (weighted Welford recurrence) over unbounded sequences.", "anchors": ["salabim/salabim.py:Monitor.tally", "salabim/salabim.py:Monitor.mean", "salabim/salabim.py:Monitor.std", "salabim/salabim.py:Monitor.minimum", "salabim/salabim.py:Monitor.maximum"]}
{"id": "C21", "title": "Cached statistics are never stale", "statement": "Every statistic read from a monitor is the one computed from the tallies up to now, no matter which statistics were read before and when.", "quantifier": "every interleaving of tallies, clock advances and reads", "why_tests_cant": "Cache staleness depends on the interleaving.", "anchors": ["salabim/salabim.py:Monitor._xweight", "salabim/salabim.py:Monitor.tally"]}
{"id": "C22", "title": "Merging level monitors adds them pointwise", "statement": "merge of level monitors of one type (or of the types any, float and double) has at each time before now the sum of the values of the merged monitors, and is off whenever one of them is off; merge of non-level monitors contains all tallies with their weights in time order. Level monitors of the types any, float and double can always be merged; a stats_only monitor, and a level with a non-level monitor, never. (For other mixes of types, and at now itself, this fails: shown by counterexamples.)", "quantifier": "all monitors and all times before now", "why_tests_cant": "Simultaneous changes in different monitors are the difficult case; there are unboundedly many.", "anchors": ["salabim/salabim.py:Monitor.merge"]}
{"id": "C23", "title": "Slicing a monitor", "statement": "m.slice(start, stop) keeps exactly the tallies (non level) in [start, stop), respectively, if m is not off just before the end, agrees with m on [start, stop) and is off outside (level). (If m is off at the end, without start, for a slice of a slice and after reset_now this fails: shown by counterexamples.) m.slice(start, stop, modulo) does the same with all the intervals [start + k * modulo, stop + k * modulo), k integer, that start before now and not before the last multiple of modulo at or before the first tally; so, if start and stop lie between two consecutive multiples of modulo, with all of them. For level monitors this holds if m was never off and no interval is open now. (An interval that is open now is counted to its end, and intervals over a multiple of modulo miss the first one: shown by counterexamples.)", "quantifier": "every monitor that is not itself a slice, every interval given by a start and possibly a stop, every modulo larger than stop - start", "why_tests_cant": "Boundary behaviour for every interval and every tally history.", "anchors": ["salabim/salabim.py:Monitor.slice"]}
{"id": "C24", "title": "Percentiles", "statement": "percentile(q) lies between minimum and maximum, equals them for q=0 and q=100, does not decrease in q, and at least q percent of the weight is at or below it and at least 100-q percent at or above it (without weights: of n-1 of the n entries, as it interpolates between the closest ranks).", "quantifier": "every multiset of (weighted) values, every q in [0,100]", "why_tests_cant": "Universally quantified inequality.", "anchors": ["salabim/salabim.py:Monitor.percentile"]}
{"id": "C25", "title": "Bins partition the tallies", "statement": "The counts (or weights, or durations) of consecutive bins (-inf,b0],(b0,b1],...,(bn,inf) as printed in a histogram add up to the total number of entries (weight, duration).", "quantifier": "every monitor content, every list of bin boundaries", "why_tests_cant": "Boundary values must be counted exactly once for every content.", "anchors": ["salabim/salabim.py:Monitor.bin_number_of_entries", "salabim/salabim.py:Monitor.bin_weight", "salabim/salabim.py:Monitor.print_histogram", "salabim/salabim.py:Monitor.histogram_autoscale"]}
{"id": "C26", "title": "Scaling a monitor", "statement": "multiply(k)/x_map(f) of an unweighted monitor give a monitor whose tallies are the mapped ones with the same times, and x_map(f) of level monitors has f of the values at each moment at which all are on; the mean of multiply(k) is k times the mean; t_multiply(k) of a level monitor has at k times a moment the value at that moment. (Weights are lost, multiply rejects all types but float, values equal to the off code are lost, and t_multiply fails if the last change is at now/k: shown by counterexamples.)", "quantifier": "every unweighted monitor (multiply: of type float), factor and function", "why_tests_cant": "All contents, weighted and unweighted, level and non level.", "anchors": ["salabim/salabim.py:Monitor.multiply", "salabim/salabim.py:Monitor.x_map", "salabim/salabim.py:Monitor.t_multiply"]}
{"id": "C27", "title": "Claimed quantity equals the sum of the claims and never exceeds the capacity", "statement": "For an ordinary resource claimed_quantity never goes negative and is never less than the sum of what its claimers claim, and it is exactly that sum when all quantities are multiples of a unit of at least 1e-8 (e.g. integers; in general releases may leave a residue below 1e-8 behind). As long as the capacity isn't set below what is claimed and no negative quantity is released, it never exceeds the capacity by more than 1e-8 (and not at all for multiples of a unit).", "quantifier": "every history of request, release, cancel, time-out, preemption and set_capacity", "why_tests_cant": "Conservation law over all histories.", "anchors": ["salabim/salabim.py:Component.request", "salabim/salabim.py:Component._tryrequest", "salabim/salabim.py:Component._release", "salabim/salabim.py:Component.release", "salabim/salabim.py:Resource.set_capacity"]}
{"id": "C28", "title": "Anonymous resources stay between 0 and capacity", "statement": "get/put requests on an anonymous resource are only honoured when the claimed quantity afterwards is within 0 and the capacity (tolerance 1e-8), and the claimed quantity changes by exactly the requested amounts.", "quantifier": "every history of get/put requests", "why_tests_cant": "Conservation law over all histories.", "anchors": ["salabim/salabim.py:Component._tryrequest", "salabim/salabim.py:Component.honor_all", "salabim/salabim.py:Component.honor_any", "salabim/salabim.py:Resource._tryrequest"]}
{"id": "C29", "title": "No request is forgotten", "statement": "After a release (or capacity increase) no waiting request that could be honoured on its own remains waiting for that resource, given the resource's honouring rule.", "quantifier": "every set of waiting requests with any priorities and quantities", "why_tests_cant": "Lost wake-ups need particular mixes of quantities; the early-exit optimisation has to be right for every mix.", "anchors": ["salabim/salabim.py:Resource._tryrequest", "salabim/salabim.py:Resource.release", "salabim/salabim.py:Component._tryrequest"]}
{"id": "C30", "title": "honor_only_first never overtakes", "statement": "With honor_only_first a request is never honoured while an earlier (or higher priority) request for the same resource is waiting (as long as no negative quantities are released). A component that calls request() while somebody of the same or a higher priority (honor_only_first), or of a higher priority (honor_only_highest_priority), already waits for a (non preemptive) resource does not get that resource, whatever is available; unless oneof is used, it gets nothing and waits with exactly what it asked for.", "quantifier": "every set of waiting requests", "why_tests_cant": "All interleavings.", "anchors": ["salabim/salabim.py:Component.honor_all", "salabim/salabim.py:Component.honor_any", "salabim/salabim.py:Resource._tryrequest", "salabim/salabim.py:Component.request"]}
{"id": "C31", "title": "Requests for several resources are all-or-nothing", "statement": "A request for several resources claims all of them at one moment or none; with oneof exactly one, the first in the order given that can be granted; a request that fails (time-out) claims nothing and leaves all waiting lists. A request of the current component for non-preemptive resources is granted at once exactly if nothing stands in the way: of each resource (with oneof: of one of them) there is enough (up to 1e-8), and, if the resource has honor_only_first or honor_only_highest_priority, nobody in its line comes before the component, or has a higher priority; if so the component gets exactly what it asked for, otherwise it waits in all the lines and claims nothing.", "quantifier": "every combination of resources and quantities", "why_tests_cant": "Partial claims show up only in special interleavings.", "anchors": ["salabim/salabim.py:Component.request", "salabim/salabim.py:Component.honor_all", "salabim/salabim.py:Component.honor_any", "salabim/salabim.py:Component._tryrequest", "salabim/salabim.py:Component._check_fail"]}
{"id": "C32", "title": "Preemption bumps only as much as needed", "statement": "A request with higher priority on a preemptive resource takes the claims of the lowest priority claimers, only those of strictly lower priority, and only as many as needed to honour the request; if it cannot be honoured nobody is bumped.", "quantifier": "every claimer list, quantity and priority", "why_tests_cant": "Depends on the whole claimer list.", "anchors": ["salabim/salabim.py:Component.request", "salabim/salabim.py:Component._release"]}
{"id": "C33", "title": "wait returns only if the condition holds, and does not miss a state change", "statement": "A component waiting for states becomes scheduled by a state change exactly when its condition (any/all) holds for the state values at that moment; after set() no waiter whose condition holds is left waiting. (Unless wait was called for an interrupted component, which then waits even if the condition holds: shown by a counterexample.)", "quantifier": "all states, conditions, waiters, change histories", "why_tests_cant": "Lost wake-ups.", "anchors": ["salabim/salabim.py:Component.wait", "salabim/salabim.py:Component._trywait", "salabim/salabim.py:State.set", "salabim/salabim.py:State._trywait"]}
{"id": "C34", "title": "trigger(max=n) releases at most n, first come first served", "statement": "trigger(max=n) lets at most n waiters continue, these are the first n in the waiting queue whose condition holds for the trigger value, and afterwards the state has its value_after. (With n at least 1, as max=0 lets all continue; and if value_after differs from the value before, those whose condition holds for value_after continue as well: shown by counterexamples.)", "quantifier": "all waiter lists and all n", "why_tests_cant": "Ordering over arbitrary waiter lists.", "anchors": ["salabim/salabim.py:State.trigger", "salabim/salabim.py:State._trywait"]}
{"id": "C35", "title": "Stores neither lose nor duplicate items", "statement": "Each item put into a store is, at any time, either in the store or has been handed to exactly one component; the number of items in the store never exceeds its capacity. (As long as set_capacity isn't given less than that number. rescan loses an item if a waiting component accepts two items: shown by a counterexample.)", "quantifier": "every history of to_store, from_store, enter, leave, set_capacity (for rescan the first part is false; set_capacity not below the number of items)", "why_tests_cant": "Conservation over all histories.", "anchors": ["salabim/salabim.py:Component.from_store", "salabim/salabim.py:Component.to_store", "salabim/salabim.py:Store._rescan_to", "salabim/salabim.py:Store.rescan", "salabim/salabim.py:Qmember.insert_in_front_of", "salabim/salabim.py:Component.leave"]}
{"id": "C36", "title": "from_store takes the first matching item and serves requesters in order", "statement": "An immediately honoured from_store returns the first item in store order that satisfies the filter (the one with smallest key if a key is given), from the first store that has one; an item put in a store goes to the first waiting requester whose filter accepts it. When an item is taken out, by leave, by from_store or because it's handed on, the first component waiting in to_store for that store puts in its item and continues, if there is room then. (With a key and several stores the call raises unless the item with the smallest key is in the last store, and if the item that is waiting for room is wanted by a waiting requester, making room never returns: shown by counterexamples.)", "quantifier": "all stores, filters, requester lists, calls that return (with a key: one store)", "why_tests_cant": "All contents and filters.", "anchors": ["salabim/salabim.py:Component.from_store", "salabim/salabim.py:Qmember.insert_in_front_of"]}
{"id": "C37", "title": "Cdf sampling inverts the given cumulative distribution", "statement": "Cdf.sample() is, as function of the underlying uniform random number, non decreasing, within the range of the given points, and the set of random numbers for which the sample is at most x_i has length exactly cum_i/cum_n.", "quantifier": "every valid specification and every random number in [0,1)", "why_tests_cant": "A statement about an interval of random numbers; sampling can't establish it.", "anchors": ["salabim/salabim.py:Cdf.__init__", "salabim/salabim.py:Cdf.sample"]}
{"id": "C38", "title": "Pdf/CumPdf sampling yields each value with its probability", "statement": "The random numbers for which Pdf.sample() returns x_i form an interval of length p_i/sum(p); the result is always one of the specified values; mean() is the probability weighted mean. With equal probabilities sample(n) gives n different ones of the values (all of them if n is larger); otherwise, and for negative n, it raises.", "quantifier": "every specification and every random number in [0,1)", "why_tests_cant": "As for Cdf.", "anchors": ["salabim/salabim.py:Pdf.__init__", "salabim/salabim.py:Pdf.sample", "salabim/salabim.py:CumPdf.__init__", "salabim/salabim.py:CumPdf.sample"]}
{"id": "C39", "title": "Bounded samples respect the bounds", "statement": "bounded_sample / Bounded return a value within [lowerbound, upperbound] (or strictly inside when so requested), or the fail value after the allowed number of retries; the number of samples drawn never exceeds the allowed number.", "quantifier": "every stream of samples, bounds, number of retries", "why_tests_cant": "Streams are infinite objects.", "anchors": ["salabim/salabim.py:bounded_sample", "salabim/salabim.py:Bounded.sample", "salabim/salabim.py:_Distribution.bounded_sample"]}
{"id": "C40", "title": "Distribution arithmetic", "statement": "Sampling an expression of distributions applies the operator to the samples, taken from left to right; // gives the largest integer that isn't larger than the quotient, and a division by 0 raises; mean() of d+c, d-c, d*c, d/c, c-d is the corresponding expression of the mean. Any operator with a distribution on at least one side gives a distribution. A sample of Map(d, function) is the function of a sample of d, taken with the same random numbers.", "quantifier": "every expression tree and stream", "why_tests_cant": "All expressions.", "anchors": ["salabim/salabim.py:_Expression.__init__", "salabim/salabim.py:_Expression.sample", "salabim/salabim.py:_Expression.mean", "salabim/salabim.py:Map.sample"]}
{"id": "C41", "title": "Time units", "statement": "Converting to and from a time unit is the identity, converting via another unit makes no difference, and a distribution specified in a time unit has mean and samples multiplied by the same factor.", "quantifier": "all time units, all values, all environments' time units", "why_tests_cant": "All numbers.", "anchors": ["salabim/salabim.py:Environment.years", "salabim/salabim.py:Environment.to_time_unit", "salabim/salabim.py:_time_unit_factor", "salabim/salabim.py:_time_unit_lookup", "salabim/salabim.py:Environment.to_years"]}
{"id": "C42", "title": "ComponentGenerator creates the right number at the right times", "statement": "On a clock that was not reset: with number=n exactly n components are created (if till doesn't come earlier), none after till, none before at; inter-arrival times are the sampled ones; at_end is called exactly once at the end (generators without disturbance); equidistant generators place n components evenly from at to till; spread creation between at and till has all moments within [at, till] with force_at/force_till on the end points (samples not all equal); given moments are met exactly. A generator is refused exactly for contradicting arguments (at and delay, till and duration, till before at, a negative number, force_till with an iat, equidistant without an end, with an iat or for just one component, a single component forced to both ends of a spread) or if it would begin in the past.", "quantifier": "every iat stream, at, till, number, force flags", "why_tests_cant": "Loop over arbitrary streams.", "anchors": ["salabim/salabim.py:ComponentGenerator.do_iat", "salabim/salabim.py:ComponentGenerator.do_spread", "salabim/salabim.py:ComponentGenerator.__init__"]}
{"id": "C43", "title": "interpolate", "statement": "interpolate(t,t0,t1,v0,v1) is v0 for t<=t0, v1 for t>=t1 (in either order of t0,t1), stays between v0 and v1, is monotone in t, and acts on tuples element by element. Between a number and None there is None, strictly between t0 and t1.", "quantifier": "all numbers, including t0=t1 and reversed intervals", "why_tests_cant": "All real arguments.", "anchors": ["salabim/salabim.py:interpolate"]}
{"id": "C44", "title": "searchsorted and interp", "statement": "searchsorted(a,v,side) returns the number of elements < v (left) respectively <= v (right); interp(x,xp,fp) is the piecewise linear function through the points, constant outside.", "quantifier": "all sorted sequences, all values", "why_tests_cant": "All sequences.", "anchors": ["salabim/salabim.py:searchsorted", "salabim/salabim.py:interp"]}
{"id": "C45", "title": "arange and linspace", "statement": "linspace(a,b,n) has n values from a to b (endpoint) equally spaced; arange(a,b,s) contains exactly the values a+i*s before b.", "quantifier": "all arguments", "why_tests_cant": "Termination and off-by-one for all arguments.", "anchors": ["salabim/salabim.py:arange", "salabim/salabim.py:linspace"]}
{"id": "C46", "title": "Generated names are unique", "statement": "Objects of a kind created with serialized names ('car.', 'car,') get distinct names with consecutive sequence numbers starting at 0 (respectively 1). The base name is the name given or, without a name or with just '.' or ',', the name of the class in lower case.", "quantifier": "every sequence of creations with any base names", "why_tests_cant": "Uniqueness over unbounded sequences.", "anchors": ["salabim/salabim.py:_set_name"]}
{"id": "C47", "title": "ItemFile reads back what was written", "statement": "Items separated by blanks, tabs or newlines, plain or quoted, with comments, are read back one by one in order.", "quantifier": "all lists of items and layouts", "why_tests_cant": "All strings.", "anchors": ["salabim/salabim.py:ItemFile._nextread", "salabim/salabim.py:ItemFile.read_item"]}
{"id": "C48", "title": "Movement along a trajectory", "statement": "The travelled length is 0 at the start, the full length at the end, never decreases in time, is continuous, also at the changes between acceleration, constant speed and deceleration, and never goes faster than vmax; the speed increases from v0 with acc and decreases to v1 with dec; the speed of the middle part is vmax, unless the length is too short to reach it: then there is no middle part. A movement over a positive length is accepted exactly if v0 (with a finite acceleration) and v1 (with a finite deceleration) are not above vmax and, with both, v1^2 <= v0^2 + 2*acc*length and v0^2 <= v1^2 + 2*dec*length; otherwise ValueError is raised.", "quantifier": "all lengths, non negative speeds, positive accelerations and decelerations that are accepted, all times", "why_tests_cant": "Real-valued functions.", "anchors": ["salabim/salabim.py:_Movement.__init__", "salabim/salabim.py:_Movement.l_at_t"]}
{"id": "C49", "title": "Trajectories merge seamlessly", "statement": "A merged trajectory lasts the sum of the durations, has the sum of the lengths, and at each time follows the part that is active then. (A merged trajectory that is not the first part is not shifted to its start, and length() without a time raises for circles: shown by counterexamples.)", "quantifier": "all lists of trajectories in which only the first one may itself be merged, and all times", "why_tests_cant": "All lists.", "anchors": ["salabim/salabim.py:TrajectoryMerged.__init__", "salabim/salabim.py:TrajectoryMerged.index", "salabim/salabim.py:TrajectoryMerged.length"]}
{"id": "C50", "title": "Period monitors partition the tallies", "statement": "Once its first period has started, each tally of a monitor with one PeriodMonitor is tallied in exactly one period monitor, the one of the current period; for a level monitor the monitor of the current period has the value of the monitor and the others are off; periods follow each other cyclically. (Tallies before the first period started are lost, and with a second PeriodMonitor on a monitor tallying never ends: shown by counterexamples.)", "quantifier": "all tally histories and period lists, one period monitor on a monitor", "why_tests_cant": "All histories.", "anchors": ["salabim/salabim.py:PeriodMonitor.__init__", "salabim/salabim.py:_PeriodComponent.process", "salabim/salabim.py:PeriodMonitor.__getitem__"]}
{"id": "C51", "title": "reset_now only shifts the presented time", "statement": "reset_now changes what now(), scheduled_time() etc. report by the same constant and leaves the order of future events, remaining durations, and statistics durations unchanged. (Only slicing a monitor doesn't follow the shift: shown by a counterexample.)", "quantifier": "every state and new now", "why_tests_cant": "All states.", "anchors": ["salabim/salabim.py:Environment.reset_now", "salabim/salabim.py:Environment.now", "salabim/salabim.py:Component.scheduled_time"]}
{"id": "C52", "title": "Set operations on queues", "statement": "union, intersection, difference, symmetric_difference, copy, move, clear, extend yield the members required by set theory, in the documented order, each once, and do not alter the operands (except move, clear, extend).", "quantifier": "all queues", "why_tests_cant": "All contents.", "anchors": ["salabim/salabim.py:Queue.union", "salabim/salabim.py:Queue.intersection", "salabim/salabim.py:Queue.difference", "salabim/salabim.py:Queue.symmetric_difference", "salabim/salabim.py:Queue.move", "salabim/salabim.py:Queue.copy", "salabim/salabim.py:Queue.clear", "salabim/salabim.py:Queue.extend"]}
{"id": "C53", "title": "Available quantity of a queue", "statement": "available_quantity() of a queue equals its capacity minus its length at all times.", "quantifier": "every history of queue operations and capacity changes", "why_tests_cant": "All histories.", "anchors": ["salabim/salabim.py:Queue.set_capacity", "salabim/salabim.py:Qmember.insert_in_front_of", "salabim/salabim.py:Component.leave", "salabim/salabim.py:Queue.copy"]}
{"id": "C54", "title": "Polygons and circles are followed at the travelled length", "statement": "A polygon trajectory starts in its first point, ends in its last point, and is at each time on the segment in which the travelled length lies, at the corresponding distance from both ends of the segment; a circle trajectory stays at the radius from the centre and turns from angle0 to angle1 in proportion to the travelled length. (length(t) of a polygon is wrong after the first segment: shown by a counterexample.) A polygon is accepted exactly if it has at least two points and the movement over the sum of the distances between them is accepted, a circle exactly if the movement over the length of its arc is.", "quantifier": "all lists of points, radii, angles, movements and times", "why_tests_cant": "Real-valued functions over unboundedly many polygons.", "anchors": ["salabim/salabim.py:TrajectoryPolygon.__init__", "salabim/salabim.py:TrajectoryPolygon.indexes", "salabim/salabim.py:TrajectoryPolygon.x", "salabim/salabim.py:TrajectoryPolygon.y", "salabim/salabim.py:TrajectoryCircle.x", "salabim/salabim.py:TrajectoryCircle.y", "salabim/salabim.py:TrajectoryCircle.length"]}
{"id": "C55", "title": "A higher capacity lets waiting components put their items into the store, in order", "statement": "If the capacity of a store is not lowered by set_capacity, the components waiting to put an item into that store do so in the order in which they wait, until nobody waits or the store is full; they continue now, the items in the store are the ones that were there plus theirs, the others keep waiting untouched, and other stores are not affected. A lower capacity changes nothing else, even if the items in the store don't fit anymore.", "quantifier": "all reachable states, capacities that are whole numbers or inf, any number of waiting components that wait for this store only with different items not wanted by a waiting requester", "why_tests_cant": "All numbers of waiting components, contents and capacities.", "anchors": ["salabim/salabim.py:Store.set_capacity", "salabim/salabim.py:Store._rescan_to"]}
{"id": "C56", "title": "The statistics of a non level monitor are those of the tallies made while it was on", "statement": "For a non level monitor, number_of_entries, weight, mean, std, minimum and maximum (with or without zeros) are exactly those of the tallies made since the last reset while monitoring was on, for stats_only monitors too. Without stats_only the monitor has exactly these tallies, in order, each with its moment, value and weight, the number of entries and weight per bin and per value are counted over these tallies, and a percentile lies between the lowest and highest of them and splits their weight as it should.", "quantifier": "all histories of tallies (finite values of the type, positive weights), switching on and off, resets, reads; all moments, bins, sets of values, percentages", "why_tests_cant": "All interleavings of tallies with different weights, switching, resets and cached reads.", "anchors": ["salabim/salabim.py:Monitor.tally", "salabim/salabim.py:Monitor.monitor", "salabim/salabim.py:Monitor.reset", "salabim/salabim.py:Monitor.mean", "salabim/salabim.py:Monitor.std", "salabim/salabim.py:Monitor._xweight", "salabim/salabim.py:Monitor.percentile"]}
{"id": "C57", "title": "mean() of a distribution is the expectation of its samples", "statement": "For Uniform, IntUniform, Cdf, and Pdf/CumPdf with numbers as values, in any time unit, each sample is a number that depends on one random number in [0,1), and mean() is the expectation of that number. This remains so for a distribution plus, minus, times or divided by a number.", "quantifier": "all bounds, points, values, (non negative) probabilities, time units and numbers accepted by the constructors", "why_tests_cant": "An expectation is a limit over all random numbers, and there are infinitely many specifications.", "anchors": ["salabim/salabim.py:Uniform", "salabim/salabim.py:IntUniform", "salabim/salabim.py:Cdf", "salabim/salabim.py:Pdf", "salabim/salabim.py:CumPdf", "salabim/salabim.py:_Expression"]}
{"id": "C58", "title": "A component that is told to do something else gives up what it was waiting for", "statement": "If hold, passivate, standby or activate (without keep_request/keep_wait) is called for a component that waits for resources, a state, an item of a store or room in a store, or if it becomes current as its time is up, it leaves all the queues in which it waits, failed() becomes True, its claims and everything and everybody else stay as they were (the others keep their places). If it wasn't waiting, failed() doesn't change. With keep_request/keep_wait activate lets it stay in these queues.", "quantifier": "all histories of calls, all waiting components, all arguments of the calls", "why_tests_cant": "Needs every combination of things waited for, queues with others in them, and ways to be redirected.", "anchors": ["salabim/salabim.py:Component._check_fail", "salabim/salabim.py:Component.hold", "salabim/salabim.py:Component.passivate", "salabim/salabim.py:Component.standby", "salabim/salabim.py:Component.activate", "salabim/salabim.py:Environment.step"]}
{"id": "C59", "title": "remaining_duration() is the time until the pending event, and is kept by passivate", "statement": "remaining_duration() of a component that is scheduled, requesting or waiting is the time from now till its pending event (inf: no event). passivate() of such a component keeps it, and it doesn't change as long as the component stays passive or interrupted and nobody does something with it. After remaining_duration(v) it is v, and a pending event is at now + v. After hold(d, interrupted=n) it is d, and interrupt_level() is n. (Passivating a component that is passive or interrupted already changes it: shown by counterexamples.)", "quantifier": "all histories of calls, all values", "why_tests_cant": "Arbitrary other calls and steps may happen in between.", "anchors": ["salabim/salabim.py:Component.remaining_duration", "salabim/salabim.py:Component.passivate", "salabim/salabim.py:Component.hold"]}
{"id": "C60", "title": "The interpolation methods of percentile", "statement": "For values with positive weights (weighted monitors with tallies, level monitors) the numbers that qualify as q percentile (at least q percent of the weight at or below it and at least 100-q percent at or above it, within the values) form an interval: percentile(q, interpolation='lower') is the lower end, 'higher' the upper end, 'linear' and 'midpoint' both are the middle. For monitors without weights, with n values sorted as s0..s(n-1), h = q/100*(n-1) and i the integer part of h: 'lower' is s(i), 'higher' is s(i+1), 'midpoint' is their mean, 'linear' is the point at fraction h-i between them and 'nearest' is s(i) if h-i <= 1/2, otherwise s(i+1). (So 'higher' and 'midpoint' do not give s(i) if h is an integer, contrary to the documentation.)", "quantifier": "for all lists of values and weights of any length, in any order, with ties, all q strictly between 0 and 100, and all methods", "why_tests_cant": "Values, weights, ties and q are unbounded; the methods only differ when the cumulative weight hits q exactly or by the position between values, which few tests do.", "anchors": ["salabim/salabim.py:1844-1961"]}
{"id": "C61", "title": "Trajectories head in the direction of the movement", "statement": "The angle of a polygon trajectory is, strictly between two points, the direction (-180..180 degrees) from the one point to the next. The angle of a circle trajectory is that of the tangent in the direction of travel: seen from the position at t with that angle as forward direction, the position at t' is r*sin((l'-l)/r) forward and r*(1-cos((l'-l)/r)) to the left when angle0 < angle1 and to the right otherwise, with l and l' the lengths travelled. The orientation function is applied to that angle. A standstill has length 0 and keeps its place and angle at all times. in_trajectory(t) holds exactly from t0 through t0 + duration, for merged trajectories from the t0 of the first one through the sum of the durations.", "quantifier": "all polygons, circles, movements, orientation functions and times", "why_tests_cant": "Real-valued functions over all polygons, circles and pairs of times.", "anchors": ["salabim/salabim.py:TrajectoryPolygon.angle", "salabim/salabim.py:TrajectoryCircle.angle", "salabim/salabim.py:TrajectoryStandstill", "salabim/salabim.py:_Trajectory.in_trajectory"]}
{"id": "C62", "title": "Only the components that are served notice that items come and go", "statement": "If an item is put into or taken out of a store by enter, leave, or an immediately honoured to_store or from_store, then nothing changes for any component but the caller, the first waiting requester that accepts the item put in, and, if an item was taken out and there is room then, the first component waiting to put an item into that store: the others keep waiting in the same lines, in the same order, and with the same events scheduled.", "quantifier": "all reachable states, stores, items and components", "why_tests_cant": "a test would have to look at all components and all waiting lines in all situations, including the handing on of an item to a requester that makes room for another one", "anchors": ["salabim/salabim.py:Component.from_store", "salabim/salabim.py:Component.to_store", "salabim/salabim.py:Component.enter", "salabim/salabim.py:Component.leave"]}
{"id": "C63", "title": "Scheduling calls raise for the documented misuses only", "statement": "In every state a program can get into, these calls return, and do not raise, exactly if the condition given is met. hold: the component isn't a data component, not both duration and till are given, and the moment isn't in the past or cap_now is set. passivate: the component isn't a data component. activate: a process is available if one has to be started, and the moment isn't in the past or cap_now is set; likewise the creation of a component, and run (where it is allowed to give neither duration nor till). interrupt: the component is scheduled or interrupted. resume: the component is interrupted and, if this ends the interrupt, its remaining duration isn't negative. standby: the component is current, or it is neither a data component nor main. remaining_duration(value): the component is passive or interrupted, or it is neither current nor standby and the value isn't negative. The scheduler's step, and set, reset and trigger of states, always return. wait and wait_for return if there is something to wait for (for wait_for: no state twice) and the fail moment is allowed; from_store if nothing acceptable is there, or there's no key and nobody waits to put in something; to_store if capacities are whole and the item is neither in the stores nor waited for; cancel and the end of a process if the component claims nothing.", "quantifier": "all reachable states, components and arguments", "why_tests_cant": "that the bookkeeping of event list, standby lists and waiting lines never makes a legal call fail, whatever the component is waiting for in however many lines, needs all histories", "anchors": ["salabim/salabim.py:Component.hold", "salabim/salabim.py:Component.passivate", "salabim/salabim.py:Component.activate", "salabim/salabim.py:Component.interrupt", "salabim/salabim.py:Component.resume", "salabim/salabim.py:Component.standby", "salabim/salabim.py:Component._check_fail", "salabim/salabim.py:Component._remove", "salabim/salabim.py:Environment.step", "salabim/salabim.py:Component.wait"]}
{"id": "C64", "title": "Slicing, deleting from and popping a queue act like on a Python list", "statement": "q[a:b:k] gives the components at exactly the positions that Python defines for that slice of a sequence (any a, b, k, positive or negative, given or not; only a step 0 raises), in that order. del q[a:b:k] and del q[i] take exactly these components out of the queue; pop() and pop(i) take out and return the head, respectively the component at position i (from the end if negative). The other components keep their order, priority and enter time, and other queues don't change. (pop(i) of a position that doesn't exist raises, although None is documented: shown by a counterexample.)", "quantifier": "for all reachable queues, slices and positions", "why_tests_cant": "three optional unbounded integers of either sign combined with any length of the queue; tests try a handful of combinations", "anchors": ["salabim/salabim.py:Queue.__getitem__", "salabim/salabim.py:Queue.__delitem__", "salabim/salabim.py:Queue.pop", "salabim/salabim.py:Queue.remove"]}
{"id": "C65", "title": "Where a component joins the line", "statement": "A component that has to wait in request, from_store, to_store, wait or wait_for joins the line of each of the resources, stores or states behind all components with the same or a higher priority and before all with a lower priority; the others keep their places and no other queue changes. In wait it joins the line of a state once, with the priority of the first condition for that state; without a priority at the end. While waiting for a resource the priority doesn't change, and when the request is granted the component is a claimer with that priority (which decides who is bumped by a request of a preemptive resource).", "quantifier": "all reachable states, all lists of resources / stores / states, quantities and priorities; for request: resources that are not preemptive", "why_tests_cant": "Needs arbitrary lines and priorities; a wrong comparison only shows with equal priorities.", "anchors": ["salabim/salabim.py:Queue.add_sorted", "salabim/salabim.py:Component.request", "salabim/salabim.py:Component.from_store", "salabim/salabim.py:Component.to_store", "salabim/salabim.py:Component.wait", "salabim/salabim.py:Component.wait_for"]}
{"id": "C66", "title": "Granting requests always comes to an end", "statement": "release, Resource.release, set_capacity, cancel, the end of a process and request return: the chain of grants they set off (a component that gets what it asked for may give to an anonymous resource, which lets others get what they asked for, and so on) is finite, raises nothing and gives a definite result, provided that nobody waits for both anonymous and other resources. That proviso holds forever if every request is made by the current component and is for resources of one kind. Without it, release may raise an AttributeError (counterexample). For request: different resources of one kind (a preemptive resource: on its own, and not claimed already by the component), quantities and moment of failure as documented. For release of claimed resources: each given once.", "quantifier": "all reachable states, any number of waiting components, all quantities, all resources (honor_only_first, honor_only_highest_priority or not)", "why_tests_cant": "Termination of mutually recursive loops over queues that change underneath them, for any number of waiting components.", "anchors": ["salabim/salabim.py:Resource._tryrequest", "salabim/salabim.py:Component._tryrequest", "salabim/salabim.py:Component.release", "salabim/salabim.py:Resource.release", "salabim/salabim.py:Resource.set_capacity", "salabim/salabim.py:Component.request", "salabim/salabim.py:Component.cancel"]}
{"id": "C67", "title": "release gives back exactly what is said", "statement": "c.release((r, q)) of a component that isn't waiting for resources lowers its claim on r, and what is claimed of r, by q, or by the whole claim if no quantity is given or q isn't less than the claim (if less than 1e-8 would remain the claim is over; with the last claim the claimed quantity becomes 0). Its other claims stay as they are. c.release() gives back all its claims. r.release(q) of an anonymous resource lowers what is claimed by q (to 0 if less than 1e-8 would remain, or without q), set_capacity leaves it as it is. After r.release() of another resource nobody who wasn't waiting claims anything of r; if nobody was waiting for r nothing of it is claimed and nothing else changes. Beyond that, requests are granted and nothing else happens to claims and requests: who gets something was waiting for it, gets all of it (one with oneof) and waits no longer, the others keep their claims and places in the lines, and each claimed quantity rises by exactly what is granted. (r.release() may also take away what it has just granted: shown by a counterexample.)", "quantifier": "all reachable states (after exceptions too), components, resources, quantities and fuel with which the call returns", "why_tests_cant": "A release sets off a chain of grants whose outcome depends on all lines; which amounts are affected can only be stated for all of them at once.", "anchors": ["salabim/salabim.py:Component.release", "salabim/salabim.py:Component._release", "salabim/salabim.py:Resource.release", "salabim/salabim.py:Resource.set_capacity"]}
{"id": "C68", "title": "scheduled_time and scheduled_priority tell when a component becomes current", "statement": "scheduled_time() of a component with a pending event is the moment of that event and scheduled_priority() its priority; by that event the component becomes current exactly at that time. scheduled_priority() is None exactly if there is no pending event; unless the component is in standby or interrupted, scheduled_time() is inf exactly if there is none. In particular passive, data and current components return inf and None. (In standby scheduled_time() is the time of going into standby, of an interrupted component it is the old time: shown by counterexamples to the documentation.)", "quantifier": "all reachable states and components, after any history of calls that don't raise", "why_tests_cant": "Every call that takes an event away or changes a status has to leave the scheduled time right; the stale values depend on the history.", "anchors": ["salabim/salabim.py:Component.scheduled_time", "salabim/salabim.py:Component.scheduled_priority", "salabim/salabim.py:Component._remove", "salabim/salabim.py:Component._reschedule", "salabim/salabim.py:Environment.step"]}
{"id": "C69", "title": "peek tells when the next step is", "statement": "If peek() is not inf the next step makes a component current at that time. It is never before now nor after any pending event. If it is inf there are no events and nobody in standby has a turn to come, and the next step gives control to main with the clock at inf. (Not if the current component was made with skip_standby, and after reset_now peek() is not on the scale of now(): shown by counterexamples.)", "quantifier": "all reachable states, after any history of calls that don't raise", "why_tests_cant": "That the first entry of the event list is the earliest depends on the heap property being kept by all calls.", "anchors": ["salabim/salabim.py:Environment.peek", "salabim/salabim.py:Environment.step"]}
{"id": "C70", "title": "the monitors of a resource are in step with it", "statement": "After any history of calls, claimed_quantity(), available_quantity() and capacity() of a resource show how much of it is claimed, how much of the capacity is not, and the capacity. occupancy() shows the part of the capacity that is claimed, or 0 if the capacity is inf or not positive. Once the clock has moved from t0 to t1, these monitors show for every moment from t0 until t1 what was the case when the clock left t0, whatever is done later. (For an anonymous resource with initial_claimed_quantity, occupancy() is 0 until the first change: shown by a counterexample.)", "quantifier": "all reachable states, after any history of calls, including calls that raise; all resources and moments", "why_tests_cant": "There are four places where the claimed quantity changes and one where the capacity does, each with its own calls of tally; a forgotten one, or an exception in between, would only show in some histories.", "anchors": ["salabim/salabim.py:Component._tryrequest", "salabim/salabim.py:Component._release", "salabim/salabim.py:Resource.release", "salabim/salabim.py:Resource.set_capacity", "salabim/salabim.py:Resource.__init__"]}
{"id": "C71", "title": "failed() tells how the last request or wait ended", "statement": "request, get, put, wait, wait_for, from_store and to_store make failed() of the component False, whether they are honoured at once or not. failed() becomes True exactly when a component that waits gives up what it waits for: by hold, passivate, standby, activate, cancel, being bumped, or becoming current as its time is up. Nothing else changes it: not getting what it waited for, no call about somebody else (not even one that raises), and not interrupt, resume, activate with keep_request, or the end of the process.", "quantifier": "all reachable states, all calls and components; for calls about others: all states whatsoever, also if the call raises", "why_tests_cant": "All combinations of calls and things waited for, and others being served or bumped by the same call.", "anchors": ["salabim/salabim.py:Component.failed", "salabim/salabim.py:Component._check_fail", "salabim/salabim.py:Component.request", "salabim/salabim.py:Component.wait", "salabim/salabim.py:Component.from_store", "salabim/salabim.py:Component.to_store"]}
{"id": "C72", "title": "an interrupted component doesn't get what it waits for", "statement": "A component that waits for resources or states, is activated with keep_request or keep_wait and then interrupted, stays interrupted, with the same requests and waits, remaining duration, interrupt level and failed(), until a call about itself (or being bumped): whatever is released, set or done by others, and in every step of the scheduler. (Not so for stores: see the counterexample of C09.)", "quantifier": "all reachable states, all calls that don't raise, all interrupted components other than main that aren't in line for a store", "why_tests_cant": "Every way in which a request or wait can be honoured would have to be tried against an interrupted component.", "anchors": ["salabim/salabim.py:Component._tryrequest", "salabim/salabim.py:Component._trywait", "salabim/salabim.py:Component.interrupt", "salabim/salabim.py:Component.activate"]}
{"id": "C73", "title": "The place of an item in a store", "statement": "An item that is put into a store and that nobody waits for comes at the end with enter, and with enter_sorted or to_store(priority=p) behind all items with a priority of at most p and before all others. If it has to wait for room, it is put into the store by the first in line as soon as there's room, at the place of the priority given in to_store. The other items keep their order. Every item in a store has the priority with which it was put there or offered; the item offered, its priority, and the filter a component waits with don't change while it waits.", "quantifier": "all reachable states, all calls that don't raise, all stores, items and priorities", "why_tests_cant": "The item may have been offered long before it is put into the store, with any calls in between.", "anchors": ["salabim/salabim.py:Component.to_store", "salabim/salabim.py:Component.from_store", "salabim/salabim.py:Component.leave", "salabim/salabim.py:Component.enter_sorted", "salabim/salabim.py:Component.enter"]}
{"id": "C74", "title": "rescan serves whoever can be served", "statement": "After rescan of a store, no component that's still waiting for an item of that store accepts an item that's in the store. Each component that doesn't wait anymore got an item that was in the store and that it accepts, and continues now; this item isn't in the store anymore and nobody else got it (unless a component was waiting to put it into the store once more). Every item that isn't in the store anymore is accepted by one of the components served. Nobody joins the line.", "quantifier": "all states of programs whose filters may change their answers at any time, all stores", "why_tests_cant": "Waiting components, filters and items that are put into the store while it is scanned interact in unboundedly many ways.", "anchors": ["salabim/salabim.py:Store.rescan", "salabim/salabim.py:Component.leave"]}
{"id": "C75", "title": "The arguments of distributions", "statement": "A distribution is refused exactly for arguments that make no sense: Exponential unless either a positive mean or a positive rate is given; Gamma and Erlang likewise for scale and rate, and a shape that isn't positive; Normal with both a standard deviation and a coefficient of variation, a coefficient of variation with mean 0, or a negative standard deviation; Uniform and IntUniform with the upper bound below the lower; Triangular unless low <= mode <= high; Weibull and Beta unless the shapes are positive; Pdf without values, with another number of probabilities than values or probabilities that add up to 0; CumPdf without values, with cumulative probabilities that aren't in order from 0 up or end at 0. The alternative arguments (rate or mean, rate or scale, coefficient of variation or standard deviation, defaults of mode and upper bound) give the very same distribution, whose samples are those of the function of the module random with these parameters, times the time unit (for Erlang: divided by it). A Pdf with a value that is not a number has mean() nan.", "quantifier": "all arguments, all random streams", "why_tests_cant": "The arguments are arbitrary numbers, and the refusals are at the boundaries between them.", "anchors": ["salabim/salabim.py:Exponential.__init__", "salabim/salabim.py:Normal.__init__", "salabim/salabim.py:Gamma.__init__", "salabim/salabim.py:Pdf.__init__", "salabim/salabim.py:CumPdf.__init__"]}
{"id": "C76", "title": "The automatic scale of a histogram fits", "statement": "After any history of tallies, resets and monitor(on/off), histogram_autoscale() of a monitor gives a bin width from the series 1, 2, 5, 10, 20, 50, ..., 5000000000, a lowerbound that is a multiple of it and a number of bins such that all values (without the zeros if ex0) are in the bins, less than one bin width is unused at either side, there are at most 30 bins (unless even the widest bins do not suffice), and each smaller bin width of the series would need more than 30 bins. With nothing tallied it gives 1, 0, 0.", "quantifier": "all histories of level and non-level monitors", "why_tests_cant": "The values at the boundaries of bins, and ranges that just do or do not fit in 30 bins, are endless; a test fixes a few.", "anchors": ["salabim/salabim.py:Monitor.histogram_autoscale", "salabim/salabim.py:Monitor.minimum", "salabim/salabim.py:Monitor.maximum"]}
{"id": "C77", "title": "xt, tx, x, xweight and xduration give back the tallies", "statement": "xt() of a level monitor is the signal that was tallied: its moments are in order, from the last reset to now, and the value that applies at each moment between them is the one last tallied at or before it, off if monitoring was off. tx() has the same rows, ex0 and exoff leave out just the rows with zero and off, add_now=False just the row for now. xduration() has the values other than off, each with the time until the next row (unless the monitor is switched off at this very moment, see C21). For a non level monitor xt(), x() and xweight() have exactly the tallies made since the last reset while monitoring was on, in order, with their moments, values and weights. (The documentation says that no row is added if the last tally is now; there always is one: shown by a counterexample.)", "quantifier": "all histories of tallies, switching on and off, resets and reads; all combinations of the arguments, all moments", "why_tests_cant": "All interleavings, ties, and combinations of the flags.", "anchors": ["salabim/salabim.py:Monitor.xt", "salabim/salabim.py:Monitor.tx", "salabim/salabim.py:Monitor.x", "salabim/salabim.py:Monitor.xweight", "salabim/salabim.py:Monitor.xduration"]}
{"id": "C78", "title": "values() is the sorted list of the distinct values", "statement": "values() has each tallied value exactly once (without 0 if ex0), numbers in ascending order, followed by other things in alphabetical order regardless of case; with sort_on_weight (sort_on_duration for level monitors) a value with more weight (a longer duration) comes before one with less, and equal ones are in the order just described. sort_on_weight of a level monitor and sort_on_duration of a non level monitor raise ValueError. (With force_numeric, values that were tallied as strings are not sorted on their weight: shown by a counterexample.)", "quantifier": "every content of a monitor, all moments, all combinations of the arguments", "why_tests_cant": "Sorting by a three part key with ties, over all contents.", "anchors": ["salabim/salabim.py:Monitor.values"]}
{"id": "C79", "title": "Datetimes", "statement": "If datetime0 is set, t_to_datetime(t) is datetime0 plus t times the length of the time unit, datetime_to_t and t_to_datetime are each other's inverse, and so are timedelta_to_duration and duration_to_timedelta. Setting datetime0 without a time unit makes the time unit seconds; without datetime0 the conversions raise ValueError. reset_now doesn't affect datetimes: after any number of calls of reset_now and any lapse of time, the datetime that belongs to now() is the original one plus the time that has passed, and every moment keeps its datetime. The days, hours, minutes and seconds in duration_to_str make up the duration, rounded down to seconds.", "quantifier": "all time units, datetimes, times and durations, all sequences of calls of reset_now and lapses of time", "why_tests_cant": "All units and all sequences of resets.", "anchors": ["salabim/salabim.py:Environment.datetime_to_t", "salabim/salabim.py:Environment.t_to_datetime", "salabim/salabim.py:Environment.timedelta_to_duration", "salabim/salabim.py:Environment.duration_to_timedelta", "salabim/salabim.py:Environment.datetime0", "salabim/salabim.py:Environment.reset_now", "salabim/salabim.py:Environment.duration_to_str"]}
{"id": "C80", "title": "A single server queue, from beginning to end", "statement": "Take a program with one clerk (a Resource of capacity 1) and any number of customers, each of which is created to start at its arrival time and has the process request(clerk), hold(service time), release(), end; run() without arguments. With arrival times that do not decrease from 0 on and service times that are not negative, the program raises nothing and ends; each customer gets control exactly at its arrival, at the beginning and at the end of its service. Service begins at the arrival or, if later, at the end of the service of the customer before. So the waiting times satisfy W(i+1) = max(0, W(i) + S(i) - (A(i+1) - A(i))), service is in order of arrival (also of simultaneous arrivals, in order of creation) and one at a time. In the end, length_of_stay of the requesters of the clerk holds the waiting times and length_of_stay of the claimers the service times, both in order of arrival, both queues are empty, and the clock shows the end of the last service.", "quantifier": "all numbers of customers, all arrival and service times (including ties between arrivals, departures and zero service times)", "why_tests_cant": "A test runs one set of arrival and service times; here every schedule is covered, and the whole chain of creation, event list, requests, hold, release and monitors at once.", "anchors": ["salabim/salabim.py:Component.__init__", "salabim/salabim.py:Component.request", "salabim/salabim.py:Component.hold", "salabim/salabim.py:Component.release", "salabim/salabim.py:Environment.run", "salabim/salabim.py:Environment.step", "salabim/salabim.py:Resource._tryrequest", "salabim/salabim.py:Component._tryrequest"]}
{"id": "C81", "title": "A queue with several servers, from beginning to end", "statement": "Take a program with m servers (a Resource of capacity m, m > 0) and any number of customers, each of which is created to start at its arrival time and has the process request(servers), hold(service time), release(), end; run() without arguments. With arrival times that do not decrease from 0 on and service times that are not negative, the program raises nothing and ends; each customer gets control exactly at its arrival, at the beginning and at the end of its service. The next customer in order of arrival is served by the server that is free first, from that moment or its arrival on, whichever is later. So services begin in order of arrival, at no moment are there more than m customers in service, and whenever a customer waits there are exactly m customers in service, all of whom came earlier. In the end length_of_stay of the requesters holds the waiting times in order of arrival, length_of_stay of the claimers holds every service time once, both queues are empty, and the clock shows the end of the service that is over last. With m = 1 this is C80.", "quantifier": "all numbers of servers and customers, all arrival and service times (including ties between arrivals, departures and zero service times)", "why_tests_cant": "A test runs one set of arrival and service times; here every schedule is covered, and the whole chain of creation, event list, requests, hold, release and monitors at once.", "anchors": ["salabim/salabim.py:Component.__init__", "salabim/salabim.py:Component.request", "salabim/salabim.py:Component.hold", "salabim/salabim.py:Component.release", "salabim/salabim.py:Environment.run", "salabim/salabim.py:Environment.step", "salabim/salabim.py:Resource._tryrequest", "salabim/salabim.py:Component._tryrequest"]}
{"id": "C82", "title": "Arrival and departure rates", "statement": "arrival_rate() of a queue is the number of components that have come into the queue since it was created, or since the last arrival_rate(reset=True), divided by the time that has passed since then, and nan if no time has passed (so it is nan right after a reset). departure_rate() is the same for components that have left. Refused calls, changes of priority and loops over the queue don't count; resetting the one rate leaves the other as it is.", "quantifier": "all histories of calls on any number of queues and components, all lapses of time", "why_tests_cant": "All histories of all ways to enter and leave, with resets at any moment.", "anchors": ["salabim/salabim.py:Queue.arrival_rate", "salabim/salabim.py:Queue.departure_rate", "salabim/salabim.py:Queue.__init__", "salabim/salabim.py:Component.leave"]}
{"id": "C83", "title": "Comparing queues and finding a component by name", "statement": "Two queues are equal (==) exactly if the same components are in them, whatever their order and priorities; q <= p says that every component in q is also in p, q < p that moreover there is a component in p that is not in q. component_with_name(txt) gives the first component in the queue with that name, None if there is none.", "quantifier": "all histories of calls on any number of queues and components, all names", "why_tests_cant": "All contents of queues and all histories that lead to them.", "anchors": ["salabim/salabim.py:Queue._operator", "salabim/salabim.py:Queue.__eq__", "salabim/salabim.py:Queue.__lt__", "salabim/salabim.py:Queue.__le__", "salabim/salabim.py:Queue.component_with_name"]}
{"id": "C84", "title": "A producer and a consumer with a buffer, from beginning to end", "statement": "Take a program with a Store of capacity m (m > 0), a producer with the process: n times hold(production time), to_store(store, item), and a consumer with the process: n times from_store(store), hold(consumption time); run() without arguments. With times that are not negative the program raises nothing and ends; there is no deadlock. Item i is put in the store when it is ready (a production time after the previous item was put in) or, if there is no room then, when the consumer gets item i - m; the consumer gets item i when it asks for it (a consumption time after it got the previous item) or, if it is not there then, when it is put in. Producer and consumer get control exactly at these moments. So the items are put in and got in order, none is got before it is put in, at no moment there are more than m in the store, and with m >= n the producer never waits. In the end length_of_stay of the store holds the times that the items have been in it, in order, the store and its queues of requesters are empty, and the clock shows the moment that the consumer is done with the last item.", "quantifier": "all capacities, numbers of items, production and consumption times (including ties and zero times)", "why_tests_cant": "A test runs one set of times and one capacity; who waits for whom, and for how long, depends on all of them.", "anchors": ["salabim/salabim.py:Component.to_store", "salabim/salabim.py:Component.from_store", "salabim/salabim.py:Component.leave", "salabim/salabim.py:Qmember.insert_in_front_of", "salabim/salabim.py:Store.set_capacity", "salabim/salabim.py:Component.hold", "salabim/salabim.py:Environment.run", "salabim/salabim.py:Environment.step"]}
{"id": "C85", "title": "The bank with one clerk that is woken up by its customers, from beginning to end", "statement": "Take the sample program 'Bank, 1 clerk': a generator makes n customers, holding for the interarrival time after each; a customer enters the waiting line, activates the clerk if clerk.ispassive(), and passivates; the clerk, while len(waitingline) == 0, passivates, and otherwise pops the first customer, holds for the service time and activates the customer. With times that are not negative the program raises nothing and comes to an end, within 5 n + 2 moments at which a component gets control: no wake-up call of the clerk is lost and no customer is left waiting. Each customer gets control exactly twice: at its arrival, and when its service is over; service begins at the arrival, or when the customer before has been served, whichever is later, also if events coincide. length_of_stay of the waiting line holds the waiting times in order of arrival. In the end the waiting line is empty, the clerk is passive, the customers are data components and main gets control. So the program gives exactly the waiting times, and customers leave at exactly the same moments, as in the program in which the clerk is a resource (C80).", "quantifier": "all numbers of customers, interarrival times and service times (including ties and zero times)", "why_tests_cant": "A test runs one set of times; whether the clerk is passive, busy or about to look at the waiting line when a customer arrives depends on them, down to the order of events at the same moment.", "anchors": ["salabim/salabim.py:Component.activate", "salabim/salabim.py:Component.passivate", "salabim/salabim.py:Component.enter", "salabim/salabim.py:Component.leave", "salabim/salabim.py:Component.ispassive", "salabim/salabim.py:Queue.pop", "salabim/salabim.py:Component.hold", "salabim/salabim.py:Environment.run", "salabim/salabim.py:Environment.step", "sample models/Bank, 1 clerk.py"]}
{"id": "C86", "title": "The monitor of the value of a state tells what the state was", "statement": "In every history of calls, also if calls raise: the last value in state.value (the monitor) is state.get(). Once the clock has moved on from t0 to t1, for every moment t with t0 <= t < t1 the monitor gives state.value(t) = the value that get() returned when the clock left t0, whatever calls are made later. A call other than set, reset or trigger of this very state leaves its value and its monitor alone. set(v) leaves the value v; it adds one tally, (now, v), if the value was different, and none if it was v already. trigger(v, value_after) adds two tallies, both at the present moment: (now, v) and (now, value_after), where value_after is the value before if not given, which is then the value.", "quantifier": "all histories of calls, all states, values and moments", "why_tests_cant": "A test looks at the monitor after one history; that no other call writes to the monitor, and that the past in it never changes, is about all histories.", "anchors": ["salabim/salabim.py:State.set", "salabim/salabim.py:State.reset", "salabim/salabim.py:State.trigger", "salabim/salabim.py:State.get", "salabim/salabim.py:Monitor.tally", "salabim/salabim.py:Monitor.__call__"]}
{"id": "C87", "title": "The bank with several clerks that are woken up by their customers, from beginning to end", "statement": "Take the sample program 'Bank, 3 clerks' with any number m >= 1 of clerks: a generator makes n customers, holding for the interarrival time after each; a customer enters the waiting line, goes through the list of clerks and activates the first one for which ispassive() holds, if any, and passivates; a clerk, while len(waitingline) == 0, passivates, and otherwise pops the first customer, holds for the service time and activates that customer. With times that are not negative the program raises nothing and comes to an end, within 5 n + m + 1 moments at which a component gets control: no wake-up call is lost (also when a woken clerk finds that another clerk has taken its customer at the same moment) and no customer is left waiting. Each customer gets control exactly twice: at its arrival, and when its service is over. Service begins when queueing theory says (each customer in order of arrival goes to the server that is free first, and begins at its arrival or at that moment, whichever is later), also if events coincide. length_of_stay of the waiting line holds the waiting times in order of arrival. In the end the waiting line is empty, all clerks are passive, the customers are data components and main gets control. So the program gives exactly the waiting times and departures of the program in which the clerks are a resource with capacity m (C81).", "quantifier": "all numbers of clerks and customers, all interarrival and service times (including ties and zero times)", "why_tests_cant": "A test runs one set of times; which clerks are passive, busy or woken up but not yet looking at the line depends on them, down to the order of events at the same moment, and the number of combinations grows with the number of clerks.", "anchors": ["salabim/salabim.py:Component.activate", "salabim/salabim.py:Component.passivate", "salabim/salabim.py:Component.enter", "salabim/salabim.py:Component.leave", "salabim/salabim.py:Component.ispassive", "salabim/salabim.py:Queue.pop", "salabim/salabim.py:Component.hold", "salabim/salabim.py:Environment.run", "salabim/salabim.py:Environment.step", "sample models/Bank, 3 clerks.py"]}
{"id": "C88", "title": "The action of an Event is performed exactly once, at its time", "statement": "An Event made for a certain moment (at, delay; now if that is in the past and cap_now is set) that isn't cancelled and to which nobody does anything else: its action is called exactly once, precisely at that moment; once the clock is past it the action has been called; before that the Event is scheduled for that moment. While the action runs the Event is the current component; after it action_taken() is True and the Event is a data component without a pending event, so that the action will not be called again. If the Event is cancelled before its moment its action is never called and action_taken() stays False. All this whatever the other components do in the meantime, and whatever calls the action makes.", "quantifier": "all histories of calls (also of the action), all times and priorities", "why_tests_cant": "Tests run one action in one model; that no sequence of calls by others, no tie at the same moment and no call of the action itself makes the action happen twice, late or not at all is a statement about all histories.", "anchors": ["salabim/salabim.py:Event.__init__", "salabim/salabim.py:Event.process", "salabim/salabim.py:Event.action_taken", "salabim/salabim.py:Environment.step", "salabim/salabim.py:Environment._terminate", "salabim/salabim.py:Component.cancel"]}
{"id": "C89", "title": "Who claims and who requests what", "statement": "In every history of calls, also if calls raise: c.isclaiming(r) holds exactly if r is in c.claimed_resources() (and isbumped(r) exactly if not), each resource is there once, and isclaiming() without a resource holds exactly if claimed_resources() isn't empty. claimed_quantity(r) is never negative, and 0 if c isn't claiming r. No component ever claims an anonymous resource. c is in r.requesters() exactly if r is in c.requested_resources(), each once; otherwise requested_quantity(r) is 0; it is negative for anonymous resources only. A component that is data, current or passive requests nothing (in the histories of C03). The converse isn't so: a component that requested a quantity of 0 is claiming, with a claimed_quantity of 0.", "quantifier": "all histories of calls, all components, all resources", "why_tests_cant": "The component keeps its own books (claims and requests) and the resource keeps queues; they are changed in different places (honouring, releasing, bumping, failing, cancelling, ending), in loops that may be nested, and may be left halfway by an exception.", "anchors": ["salabim/salabim.py:Component.isclaiming", "salabim/salabim.py:Component.isbumped", "salabim/salabim.py:Component.claimed_quantity", "salabim/salabim.py:Component.claimed_resources", "salabim/salabim.py:Component.requested_resources", "salabim/salabim.py:Component.requested_quantity", "salabim/salabim.py:Resource.requesters", "salabim/salabim.py:Resource.claimers"]}
{"id": "C90", "title": "honor_only_highest_priority never serves a lower priority first", "statement": "For a resource with honor_only_highest_priority, in any call and after any history (also with calls that raise): every request that is served, has the best (lowest) priority value of all requests that wait for that resource at that moment. So as long as a component waits for the resource, no component that waits for it with a lower priority gets (more of) it, whatever is available and whatever it asks for, as long as no negative quantities are released. Requests of the same priority may pass each other, in contrast with honor_only_first.", "quantifier": "all histories of calls, all resources, priorities and quantities, also preemptive and anonymous resources", "why_tests_cant": "Serving happens in nested loops over the waiting lists, also of other resources, started by a release, a changed capacity, a failing request, a cancel or a bump; a test shows a few waiting lists.", "anchors": ["salabim/salabim.py:Component._honor_all", "salabim/salabim.py:Component._honor_any", "salabim/salabim.py:Component._tryrequest", "salabim/salabim.py:Resource._tryrequest", "salabim/salabim.py:Resource.release"]}
{"id": "C91", "title": "The unit of time doesn't matter", "statement": "Multiply all times (at, delay, till, duration, fail_at, fail_delay, remaining_duration, reset_now) in all calls of a model by the same k > 0: every call raises the same exceptions, all components get control in the same order at k times the moments, with the same statuses, queues (contents, priorities, orders, arrivals), claims, requests, items and values of states; now, scheduled times, remaining durations, enter times and lengths of stay are k times as much; all monitors (length, claimed, available, occupancy, capacity, value) have the same values at k times the moments, so that the mean length of a queue is the same, the mean length of stay k times as much and the arrival rate k times as small. Also for complete models in which processes look at the state and remember things, as long as what they do is the same but for the unit.", "quantifier": "all models (histories of calls, also with exceptions, and sets of processes), all k > 0", "why_tests_cant": "A relation between two runs of every possible model; a constant with a hidden unit (a tolerance, a default, a comparison with 0 or 1) anywhere in the scheduler, the resources, states, stores or queues would break it for some model.", "anchors": ["salabim/salabim.py:Environment.step", "salabim/salabim.py:Component.hold", "salabim/salabim.py:Component.activate", "salabim/salabim.py:Component.request", "salabim/salabim.py:Component.wait", "salabim/salabim.py:Component.from_store", "salabim/salabim.py:Component.to_store", "salabim/salabim.py:Component.interrupt", "salabim/salabim.py:Component.remaining_duration", "salabim/salabim.py:Environment.run", "salabim/salabim.py:Environment.reset_now"]}
{"id": "C92", "title": "Poisson samples have the Poisson distribution", "statement": "Poisson(mean) is refused exactly if mean <= 0. sample() ends for every random number in [0, 1), uses no other one, and gives the least k for which the probability that a Poisson variable with that mean is at most k isn't less than the random number. So for a uniform random number the samples have the Poisson distribution with that mean, and mean() is their expectation. The other algorithm, which is there for the case that rounding keeps the first one from getting further, almost surely ends as well (it raises for a random number 0), and its results have the same distribution if the random numbers are independent and uniform.", "quantifier": "all means > 0, all random numbers; for the second algorithm all sequences of independent uniform random numbers", "why_tests_cant": "A distribution is a statement about all random numbers, which a sample can only make plausible; the loop has no bound.", "anchors": ["salabim/salabim.py:Poisson.__init__", "salabim/salabim.py:Poisson.sample", "salabim/salabim.py:Poisson.sample_fallback", "salabim/salabim.py:Poisson.mean"]}
{"id": "C93", "title": "Abbreviations in Distribution", "statement": "In Distribution(spec), the first letters of the name of a distribution, in any case, stand for that name, provided there are at least two letters for Erlang, Cdf, CumPdf and Poisson, and at least three for External (fewer mean another distribution; the documentation doesn't mention External). One, two or three parts separated by commas, possibly between parentheses, mean Constant, Uniform and Triangular of these; more parts are refused. With another name before the first parenthesis the text is taken as it is. A time unit that is given is added as the last argument.", "quantifier": "all names, abbreviations, arguments and blanks around the name", "why_tests_cant": "All abbreviations in all spellings with arbitrary texts as arguments; the names are tried in order, so adding a name may silently change the meaning of an abbreviation.", "anchors": ["salabim/salabim.py:Distribution.__init__"]}
{"id": "C94", "title": "Splines", "statement": "TrajectoryPolygon with a spline is the trajectory along the polygon through points of a curve. For Bézier these are res points of the Bézier curve of the given points (Bernstein's formula), at equidistant parameters: it begins at the first and ends at the last point and stays within the convex hull of the points. For Catmull-Rom there are res steps between two successive points, equidistant in x, on the (unique) cubic polynomial that has the values of y of both points, and at each inner point the slope given by its two neighbours (at the ends by the only neighbour), so that it passes through all points and neighbouring pieces have the same slope where they meet; equidistant values of y give a straight course. The spline is chosen by the first letter; None or a blank text leave the polygon as it is, other texts are refused.", "quantifier": "all lists of points, all resolutions", "why_tests_cant": "Real valued points in any number; identities between polynomials.", "anchors": ["salabim/salabim.py:TrajectoryPolygon.__init__"]}
{"id": "C95", "title": "regular_polygon is regular", "statement": "regular_polygon(radius, n, initial_angle) is refused exactly for fewer than three sides. Otherwise it has n corners, all at the given radius from the point (radius, radius), each 360/n degrees further than the one before, and all sides, including the one that closes the polygon, have length 2 radius sin(180/n degrees). The last corner is at the initial angle (not the first one, as documented).", "quantifier": "all radii, numbers of sides and angles", "why_tests_cant": "Real angles and any number of sides; the corners are found by repeated rotation.", "anchors": ["salabim/salabim.py:regular_polygon"]}
{"id": "C96", "title": "Bounded samples have the conditional distribution", "statement": "If the samples of a distribution are independent and identically distributed, r is the probability that a sample lies outside the bounds, and n is the allowed number of retries, then a bounded sample is the fail value with probability r^n, and otherwise it is distributed like a sample of the distribution, given that it lies within the bounds. The samples of a distribution that uses one random number for each are independent and identically distributed if the random numbers are.", "quantifier": "all distributions, bounds (included or excluded), fail values, numbers of retries", "why_tests_cant": "It is about probabilities: an experiment only estimates them.", "anchors": ["salabim/salabim.py:Bounded.sample", "salabim/salabim.py:_Distribution.bounded_sample"]}
{"id": "C97", "title": "Who is who doesn't matter", "statement": "Components are only compared by identity. If the components of a model exchange their roles (one to one), and this is done in all calls, filters, keys, items and processes as well, then the model does the same with the roles exchanged: every call raises the same exception or none, the new holder of a role gets control at the same moments in the same order, has the same status, scheduled time, remaining duration, claims and requests, stands in the same queues at the same position, and resources, states and all statistics of queues are the same. So no order of service, tie or choice depends on the name, number or address of a component.", "quantifier": "all exchanges of components, states, histories of calls, processes", "why_tests_cant": "Two runs of any model with any exchange of components; a dependence on the identity would only show for some.", "anchors": ["salabim/salabim.py:Component._push", "salabim/salabim.py:Component._remove", "salabim/salabim.py:Component._tryrequest", "salabim/salabim.py:Component._trywait", "salabim/salabim.py:Component.from_store", "salabim/salabim.py:Component.to_store", "salabim/salabim.py:Environment.step", "salabim/salabim.py:Queue"]}
{"id": "C98", "title": "Resampled dataframes show the right values", "statement": "as_resampled_dataframe has exactly the moments min_t, min_t + delta_t, min_t + 2 delta_t, ... before max_t (by default from the start of the monitor in steps of 1 till now). For each monitor and each of these moments it has the value that was last tallied at or before that moment; NA before the start and when monitoring was off. Monitors that are not level monitors or have another start are refused. This is for monitors with the same value for off and without reset_now: next to a monitor of another type an off value is shown as a number, or a number as NA, and after reset_now the t column shows the internal clock (both shown by counterexamples).", "quantifier": "all level monitors with any history of tallies, switching and resets, any numbers of extra monitors, steps and bounds", "why_tests_cant": "Any combination of moments of tallies and grid moments; off values only matter for some types.", "anchors": ["salabim/salabim.py:Monitor.as_resampled_dataframe", "salabim/salabim.py:arange"]}
{"id": "C99", "title": "Registries", "statement": "register adds an object at the end of the registry and is refused (ValueError) if it is already there; deregister takes exactly that object out and is refused if it is not there. So after any calls of register and deregister an object is in the registry exactly if it was registered and not deregistered since, once, and the objects are in the order in which they came. This is for components, states and resources, for monitors in a registry of their own, and for queues as long as no two of them have the same components in them: a queue can't be registered next to another queue with the same components (for instance two empty ones), deregister may take out another queue, and a registry with a monitor and something else gives a TypeError (all shown by counterexamples).", "quantifier": "all objects, all lists of calls, whether or not calls are refused, all contents of queues", "why_tests_cant": "Depends on the contents of the queues at the moment of the call and on all earlier calls.", "anchors": ["salabim/salabim.py:Component.register", "salabim/salabim.py:Component.deregister", "salabim/salabim.py:Queue.register", "salabim/salabim.py:Queue.deregister", "salabim/salabim.py:Monitor.register", "salabim/salabim.py:State.register", "salabim/salabim.py:Resource.register", "salabim/salabim.py:Queue.__eq__", "salabim/salabim.py:Monitor.__eq__"]}
{"id": "C100", "title": "Which histograms are shown", "statement": "print_histograms(exclude) of a queue shows the histograms of exactly those of its monitors that are not in exclude. print_histograms() of a resource or a state shows those of all monitors of its queues and of its own. With exclude, print_histograms of a resource or a state always raises a TypeError, whatever queues or monitors are in exclude and whatever is in the queues, though the documentation says that these are left out (shown by a counterexample for all of them).", "quantifier": "all queues, resources and states, all lists of monitors and queues to exclude, all contents of the queues", "why_tests_cant": "All combinations of excluded objects and contents of queues.", "anchors": ["salabim/salabim.py:Queue.print_histograms", "salabim/salabim.py:Resource.print_histograms", "salabim/salabim.py:State.print_histograms", "salabim/salabim.py:Monitor.__eq__", "salabim/salabim.py:Queue.__eq__"]}
{"id": "C101", "title": "Colours are read, written and mixed faithfully", "statement": "colorspec_to_tuple reads #rrggbb (opaque) and #rrggbbaa digit by digit, in lower and upper case; a name gives the colour of the table (opaque), name#aa the same with alpha aa, (colour, alpha) the colour with that alpha, 'fg' and 'bg' the foreground and background colour; tuples are taken as they are, (r, g, b) is opaque. Blanks in a name do not matter. A name that is not in the table and a # specification of another length or with a character that cannot be part of a number raise a ValueError. What colorspec_to_hex writes is read back as the same colour. colorinterpolate gives the first colour up to the first moment, the second colour from the second moment on, and in between every component is on the line between those of the two colours, rounded down, and between them; the moments may be given in any order, and if they are equal it is the second colour. A fully transparent colour is dark if the background colour is. If the background colour is set without a foreground colour, of the two colours one is dark and the other is not. Signs and blanks within a # specification are accepted and may give negative components, and a foreground colour that refers to itself is accepted and makes 'fg' unusable (counterexamples).", "quantifier": "all colour specifications, all tables of names, all moments", "why_tests_cant": "4 billion colours, arbitrary nesting of specifications, any moments.", "anchors": ["salabim/salabim.py:Environment.colorspec_to_tuple", "salabim/salabim.py:Environment.colorspec_to_hex", "salabim/salabim.py:Environment.colorinterpolate", "salabim/salabim.py:Environment.is_dark", "salabim/salabim.py:Environment.animation_parameters"]}
{"id": "C102", "title": "Only the order of priorities matters", "statement": "Priorities of events, of components in queues, of requests, of waits and of items in stores are only compared with each other and with 0. If all priorities in the calls of a model are replaced by other values in the same order (and 0 by 0), then every call raises the same exception or none, the components get control in the same order and at the same moments, have the same status, scheduled time, remaining duration, claims and requests and stand in the same queues at the same position, and resources, states and all statistics of queues are the same. Only the order of the priorities that occur has to be kept. 0 has to stay 0: with 1 added to all priorities, the order of control may change, as a component that gets what it asks for is scheduled with priority 0 (counterexample).", "quantifier": "all replacements of priorities that keep the order, all states, histories of calls, processes", "why_tests_cant": "Two runs of any model with any other values of the priorities; arithmetic on a priority would only show for some.", "anchors": ["salabim/salabim.py:Component._push", "salabim/salabim.py:Component.enter_sorted", "salabim/salabim.py:Component.priority", "salabim/salabim.py:Component.request", "salabim/salabim.py:Component._tryrequest", "salabim/salabim.py:Component.wait", "salabim/salabim.py:Component.wait_for", "salabim/salabim.py:Component.from_store", "salabim/salabim.py:Component.to_store", "salabim/salabim.py:Environment.step"]}
{"id": "C103", "title": "Numbers and truth values in item files", "statement": "read_item_float() yields the number that the next item stands for in decimal notation (sign, digits, point or comma, digits, power of ten; surrounding white space doesn't matter), or inf or nan, and raises ValueError for everything else. read_item_int() does so for integers and refuses items with a point or comma. read_item_bool() yields False for an empty item, for 'false' in any case, and for a number that is 0 as a float, and True for everything else; it never raises ValueError. Single underscores between two digits make no difference, anywhere else they are refused as numbers. If read_item_int() yields n for an item, then read_item_float() yields n and read_item_bool() yields whether n is not 0. Integers that were written to an item file are read back, and then EOFError is raised. Two surprises (counterexamples): read_item_bool() doesn't know the decimal comma, so that 0,0 is True though it is 0 for read_item_float(); and numbers that are not 0 but too small for a float are False.", "quantifier": "all texts in ASCII, all integers, all lists of integers", "why_tests_cant": "Any text can be an item; tests only try a few notations of a few numbers.", "anchors": ["salabim/salabim.py:ItemFile.read_item_int", "salabim/salabim.py:ItemFile.read_item_float", "salabim/salabim.py:ItemFile.read_item_bool", "salabim/salabim.py:ItemFile.read_item"]}
{"id": "C104", "title": "Coordinates, anchors, zooming and panning of the animation window", "statement": "user_to_screen_coordinates_x/y/size and screen_to_user_coordinates_x/y/size are inverse to each other; x0() and x1() are at the left and right of the window, y0() and y1() at the bottom and top, whatever the parameters were set to. Each of the anchors nw, n, ne, w, c (center), e, sw, s, se is at its place in the window, in screen coordinates and, unless the view is zoomed, in user coordinates, which are converted into each other; other anchors raise ValueError. Each notch of the mouse wheel makes everything 1.1 times larger or smaller. In a view that isn't zoomed, the point under the mouse stays where it is when the wheel is turned, and the picture follows the mouse when it is dragged. Zooming keeps x0(), x1(), y0() and y1() at the borders of the window. Whatever the user does with the mouse, the parameters don't change and unzoom (key u) gives back the original view. In a view that is zoomed already, the point under the mouse does not stay where it is, turning the wheel forth and back does not give the same view, and dragging doesn't follow the mouse and leaves x1() off the border (counterexamples): the code uses the scale of the original view there.", "quantifier": "all parameters, points, histories of calls and mouse events", "why_tests_cant": "Any sequence of mouse events at any position; the animation can't be tested without a screen.", "anchors": ["salabim/salabim.py:Environment.user_to_screen_coordinates_x", "salabim/salabim.py:Environment.screen_to_user_coordinates_x", "salabim/salabim.py:Environment.xy_anchor_to_x", "salabim/salabim.py:Environment.xy_anchor_to_y", "salabim/salabim.py:Environment.on_mousewheel", "salabim/salabim.py:Environment.start_pan", "salabim/salabim.py:Environment.do_pan", "salabim/salabim.py:Environment.unzoom", "salabim/salabim.py:Environment.animation_pre_tick", "salabim/salabim.py:Environment.animation_post_tick", "salabim/salabim.py:Environment.animation_parameters"]}
{"id": "C105", "title": "The clock of the animation", "statement": "While the animation runs, all that takes place before the moment t() of the animation clock has taken place in the simulation, and nothing that takes place after it: now() <= t() <= peek(). The animation clock never runs backwards, whatever calls are made or buttons are pressed (speed, paused, synced, go, menu, step, single step), as long as the speed is not negative and the synced button of the menu isn't used. After a change of speed, paused or synced the clock goes on from where it was: in synced mode with speed units per second of real time; if paused, it stands still and nothing happens in the simulation. The buttons half and double, go, menu have that effect with half and double the speed, not paused, paused. If not synced, each round makes one step and shows the moment of that step, unless paused, when only the step button makes one step and nothing happens after it; a single step (an_single_step) shows the moment of that step and pauses. With the synced button of the menu the clock may run backwards, so that a moment before now() is shown (counterexample): that button doesn't set the start of the animation.", "quantifier": "all simulations (among which the kernel of this model), histories of calls, buttons and rounds of the animation loop at any real time", "why_tests_cant": "Any sequence of clicks at any real time; the animation can't be tested without a screen, and real time can't be repeated.", "anchors": ["salabim/salabim.py:Environment.set_start_animation", "salabim/salabim.py:Environment.simulate_and_animate_loop", "salabim/salabim.py:Environment.animation_parameters", "salabim/salabim.py:Environment.an_half", "salabim/salabim.py:Environment.an_double", "salabim/salabim.py:Environment.an_go", "salabim/salabim.py:Environment.an_menu", "salabim/salabim.py:Environment.an_synced", "salabim/salabim.py:Environment.an_single_step", "salabim/salabim.py:Environment.paused", "salabim/salabim.py:Environment.t"]}
{"id": "C106", "title": "Animation objects move without jumps", "statement": "Calling update() of an Animate object at now() doesn't change what is shown at now() of any attribute that is interpolated (x, y, angle, ...), unless the call gives a new starting value or t0, or t1 is now(). With t1 after now(), the attribute moves along a straight line, with constant speed, to the new value, which it has at t1 and keeps from then on. Attributes of which the call says nothing stay what they are at now(), for ever, also if they were moving. If t1 is not given or before now(), the new value is never shown. If a starting value and t0 are given, the starting value is shown up to t0 and the new value from t1 on. Over any history of updates at any moments that don't give a starting value and never ask for more than a speed L, the attribute as shown changes by at most L times the time that has passed. A new object is shown at x0 up to t0 (default now()) and at x1 from t1 on. With t1 = now() the attribute jumps (counterexample).", "quantifier": "all objects, attributes, values, moments and histories of updates", "why_tests_cant": "The bound is over any number of updates at any moments, while the object is moving.", "anchors": ["salabim/salabim.py:Animate.__init__", "salabim/salabim.py:Animate.update", "salabim/salabim.py:Animate.x", "salabim/salabim.py:Animate.y", "salabim/salabim.py:Animate.angle", "salabim/salabim.py:interpolate"]}
{"id": "C107", "title": "The animation of a queue", "statement": "An AnimateQueue shows the first max_length components of the queue (all if None), from the tail if reverse, and none if not visible. Each component is put after those before it: to the right (e), to the left (w), above (n) or below (s) by the sum of their dimensions, or that far along the trajectory; so with dimensions that aren't negative, components don't overlap. Whatever happened before (updates with any contents of the queue and any parameters, changes of the scale, remove, show after remove), after an update the animation objects on the screen are exactly those of the components that are shown, as many as animation_objects() makes, and none belongs to two components; if the scale of the view has changed, components that stay keep their objects. After remove(), or once keep is False, none is left. A call of show() while already shown, which is allowed by the documentation, leaves the objects of that moment on the screen for ever, also after remove() (counterexample).", "quantifier": "all queues, parameters, dimensions and histories", "why_tests_cant": "Left over objects only show after particular histories; the animation can't be tested without a screen.", "anchors": ["salabim/salabim.py:AnimateQueue.update", "salabim/salabim.py:AnimateQueue.show", "salabim/salabim.py:AnimateQueue.remove", "salabim/salabim.py:Environment.animation_pre_tick_sys"]}
{"id": "C108", "title": "Animated images", "statement": "For an animated image (gif, webp), at any moment of a round the frame is shown that contains the moment of the movie: animation_from plus the time since the beginning of the round and, with animation_pingpong, in the second half as much before animation_to, so that the way back shows the same frames as the way forth. With animation_repeat, the same frames are shown in each round; without it, nothing is shown after the first one. Nothing is shown before animation_start. An image with one frame is always shown. ValueError is raised exactly if not 0 <= animation_from < animation_to <= duration. Although the picture is only made anew when the id of the frame changes, the screen always shows the frame that it should, up to the end. A movie that is played once shows its first frame again at the very end, and one that is played once forth and back doesn't disappear after the end, as the empty image has the id of the first frame (counterexamples).", "quantifier": "all durations of frames, parameters, moments and histories of moments", "why_tests_cant": "All moments, all numbers of rounds, and any history of moments at which the screen is drawn.", "anchors": ["salabim/salabim.py:ImageContainer.get_image", "salabim/salabim.py:ImageContainer.init", "salabim/salabim.py:ImageContainer.duration", "salabim/salabim.py:Animate2dBase.make_pil_image"]}
{"id": "C109", "title": "Moments of the frames of a video", "statement": "While a video is recorded, each frame shows the simulation at its moment: all events before it have taken place and none after it. If nothing is called or clicked, the frames are at now(), now() + speed/fps, now() + 2 speed/fps, and so on, from the moment that recording started. Whatever buttons are used (half and double speed, menu, go), the moments of the frames never go back, and after each frame the next one is speed/fps later, with the speed at the first one; while paused no frames are made. The frames of a video of separate images get different file names in increasing order: 0, 2, 4, ..., or going on from the number that an earlier video of separate images reached. In a gif or webp file, each frame takes a whole number of hundredths of a second, which is exactly the time between two frames at speed 1, for any fps up to 100. With video_pingpong the file is the same backward as forward. Any call of animation_parameters (such as speed() or show_fps()) while recording sets the video back to the moment of the last event, so a later frame may show an earlier moment (counterexample).", "quantifier": "all simulations, speeds, frames per second, and histories of rounds, calls and clicks", "why_tests_cant": "Any history of rounds of the animation loop, clicks and calls in between.", "anchors": ["salabim/salabim.py:Environment.animation_parameters", "salabim/salabim.py:Environment.simulate_and_animate_loop", "salabim/salabim.py:Environment._save_frame", "salabim/salabim.py:Environment.insert_frame", "salabim/salabim.py:Environment.video_close", "salabim/salabim.py:Environment.an_half", "salabim/salabim.py:Environment.an_double", "salabim/salabim.py:Environment.paused"]}
{"id": "C110", "title": "Images inserted into a video", "statement": "An image that is inserted into a video lies within the frame and fills its width or its height. It is scaled by the largest factor with which it fits, up to half a pixel in each direction, and is in the middle: the margins on both sides are equal, or differ by one if that is impossible, with the even one at the left and at the top. An image with the proportions of the frame fills it. An image fails to be inserted exactly if it would become narrower or lower than half a pixel (or exactly that), as for an image of 3000 by 1 in a frame of 1024 by 768 (counterexample).", "quantifier": "all sizes of the image and of the frame", "why_tests_cant": "All sizes, including those where rounding matters.", "anchors": ["salabim/salabim.py:resize_with_pad", "salabim/salabim.py:Environment.insert_frame"]}
{"id": "C111", "title": "File names of a video of separate images", "statement": "For a video of separate images, ValueError is raised exactly if the name doesn't contain one star or contains a question mark. Each frame gets its own file: its number, in at least six digits (exactly six below a million), is in the place of the star and can be read off. When recording starts, exactly those files are removed that have six characters in the place of the star; so no frames with a number below a million of an earlier video with the same name remain. Files that aren't frames may be removed, too (video_backup.png for video_*.png), and frames with a number of seven digits remain (counterexample).", "quantifier": "all names and numbers of frames", "why_tests_cant": "All names of videos and files, and all numbers.", "anchors": ["salabim/salabim.py:Environment.animation_parameters", "salabim/salabim.py:Environment.insert_frame"]}
