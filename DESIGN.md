# Formal model of salabim (salabim/salabim.py)

Everything below is about one file, `/repo/salabim/salabim.py` (cited as `salabim.py:LINES`).
The model and the proofs are in Lean 4 (`lean/Verif/`), the claims in `properties.jsonl`, the mapping from claims to theorems in `MANIFEST.json`,
the axioms each of these theorems depends on in `AXIOMS.txt`, the mutation log in `seeded/LOG.jsonl`.

## Method

* The model follows the code function by function. Each definition cites the lines it models and says where it simplifies.
* Specifications are separate definitions, in the section "specification" or "what is claimed" of the files `Verif/Props/*.lean`. They don't call the
  helpers of the model they are about, only observers (the queues, the clock, the status, the claims ...).
* Theorems that carry a claim are in `Verif/Props/*.lean`, named `Cnn_...`. Helper lemmas stand beside them or in the other modules. Next to the claim
  theorems there are `example`s in which all their hypotheses hold.
* Where the code does not have the property, the model reproduces the code, the negation is proved on a concrete witness
  (`Cnn_..._counterexample`), and what does hold is proved with the suffix `_partial`, or the claim itself states the proviso.
* Python exceptions are values; the state at the moment of the exception is kept (Python does not roll back).

## Trusted base

* Lean 4.33.0 kernel. Axioms: `propext`, `Classical.choice`, `Quot.sound`, nothing else. No `sorry`, `native_decide` or `bv_decide`. `AXIOMS.txt` has the
  output of `#print axioms` for each theorem in MANIFEST.json.
* The correspondence of the model with the Python text, which is by reading. Nothing is extracted or run.
* Semantics of CPython as modelled: lists, dicts in insertion order, `heapq` (modelled with its algorithms: `_siftdown`, `_siftup`, `heapify`), `bisect`
  (modelled with its algorithm), `sorted` (stable insertion sort), `heapq.merge` (merge of sorted lists), `slice.indices`, generators.
* `random.random()` is an arbitrary element of [0, 1) (an arbitrary stream); `random.sample` is modelled with the pool algorithm, `_randbelow(n)` as
  `floor(r * n)`. The variates of the Python library (expovariate, gammavariate, ...), `pow` and `sqrt` (outside the trajectories) are parameters.
* Numbers: Python ints and floats used as time, priority, quantity, weight, value are exact rationals (`Rat`), `inf` is `⊤` in `WithTop Rat` (`ETime`) where
  the code uses it. Rounding, overflow and `nan` arithmetic are outside the model (statistics that are `nan` in Python are `none`). The standard deviation
  is stated before its square root. Trajectories are over the real numbers.

## The models

There are five models, which are linked only where said.

### Kernel (World, Queue, Kernel)

`World` is the environment: clock, offset, event list (a heap of `(time, priority, seq, component, return value)`), standby lists, the records of the
components, queues, resources, states. `Op` is the set of calls; `exec fuel op w` is the call. `Reach ok w`: the state `w` can be reached from a fresh
environment by any sequence of calls that satisfy `ok`. The processes are arbitrary: every order of calls by every component is a history, with
the steps of the scheduler (`Op.step`) in between.

* `fuel` bounds the depth of recursion of calls that let others continue (`_tryrequest`, store `enter`/`leave`). With too little fuel the call raises
  `recursion`, as Python would. All theorems are for every fuel; a theorem about a call that returns is about every fuel with which it returns.
* `Reach Any`: all histories, also with calls that raise halfway and are caught.
* `Sane` (`OpOK`): `run` is called by main, a component does not request a preemptive resource it has already claimed.
* `Calm`: histories in which every call returns (doesn't raise), `OpOK`, and: main does not request, wait or stand by, `remaining_duration` is not set for
  a data component, the process that ends is the current component, and a component that was made with `skip_standby` keeps that. Each of these provisos was added because the
  code gets into an inconsistent state otherwise (counterexamples in `Props/Scheduling`, `Props/Ending`, `Props/Status`).
* The monitors of a resource (claimed and available quantity, occupancy, capacity) are in the model as the lists of their tallies. So is the monitor
  of the value of a state.
* Simplifications: components, resources, stores, states and queues are numbered, and exist from the start except that a component is a data component until
  `Op.create`. Filters, keys and conditions are pure functions (they can be changed between calls: `refilter`). String conditions of `wait` are not modelled.
  `cap_now` is the resolved value. Direct calls by the user of `enter`/`leave`/`set_capacity` on the queues of requesters, claimers and waiters are not in
  the set of calls. `from_store_store`/`to_store_store` are not modelled.

Invariants: `Inv` (event list, `EvInv`, `EvCore`, `EvOps`), `Good` (status, pending event, lists; `Calm*`), `QueueInv` (queues), coherence of requests and lines
(`RSpec`: an abstract specification of claiming by atomic steps; `RRefine`, `RTry`, `RWalk`: every call refines a path of these steps), `Heard`,
`Waits`, `Served`, `Enrolled` (nobody is forgotten), `Flow`, `Flow2` (items of stores), `Frame`, `Walk` (what a call leaves alone), `Shift` (offset), `Scale` (time unit), `Rename` (exchange of components), `Legal` (which
calls raise).

### Processes (Process)

A process is a list of calls per turn. `Play` is a simulation under way: a turn is a step of the scheduler, followed by the calls that the component that got control makes
in that turn; an exception ends it. Only used for C80, C81 and C84. `Program.lean` has processes that may look at the state
between their calls and remember something from one turn to the next (`Prog`, `Show`); used for C85 and C87.

### Queues at pointer level (Chain*)

`Chain` models Qmembers with predecessor and successor pointers, the sentinels, `_qmembers` dictionaries and the iterators' touched lists.
`ChainRep` relates it to lists; `PReach` are the histories. `Queue.lean` in the kernel is the list version. `QueueView` ties the operations of the kernel queue to the
same list operations.

### Monitors (Monitor)

A monitor is the state of the Python object (arrays, running sums of `stats_only`, cached statistics), histories are lists of timed operations.
Specifications: the signal as a function of time and its integral (level), the list of tallies made while it was on (non level).
Infinite values tallied are not covered. `MonRead` adds what `x()`, `t()`, `xt()`, `values()` and the like give.

### Distributions (Dist), generators (Generator), utilities (Util), datetimes (Datetime)

A distribution is a function from a stream of random numbers. `Generator` is the process of a ComponentGenerator as a machine that gives the moments at
which components are made; nobody else schedules the generator and the offset doesn't change while it runs.

`Poisson` has both algorithms of Poisson, over the reals, with a bound on the number of rounds (fuel) that the theorems quantify away.

### Trajectories (Trajectory)

`_Movement`, polygons, circles, standstill and merged trajectories over the reals. `Spline` has the points by which the parameter `spline` replaces the given points.

## Claims and how they are proved

| claims | about | files (Verif/Props) | method |
|---|---|---|---|
| C01-C05, C63 | clock, order of events, pending events, past, refused calls, which calls raise | Events, Scheduling, Given, Legal | invariants of the heap and of the event list over all histories; decision per call |
| C06-C09, C58, C59 | interrupt, cancel, standby, status, giving up, remaining duration | Interrupt, Ending, Standby, Status, GiveUp, Remaining | `Good`, induction over courses of events |
| C10, C51 | run, reset_now | Run, Reset | invariant of runs with arbitrary processes; simulation of the shifted world |
| C11-C17, C52, C53, C64 | queues | Queues, QSlice | refinement of the pointers to lists, iterators as machines |
| C18-C26, C50, C56, C60 | monitors | Monitor, MonStats, MonTally, MonPlain, MonMerge, Slice, SliceMod, Bins, Percentile, Period, Interp | representation of a signal; algebra of weighted lists |
| C27-C32 | resources | Resources, Requests, Turn, AtOnce, Forgotten, Preempt | refinement to atomic steps |
| C33, C34 | states | States | invariant: the wait of a waiting component is not over |
| C35, C36, C55, C62 | stores | Stores, Room, Waiting, Returned | multiset conservation, exact effect of entering and leaving |
| C65 | the place in line | Lines | sortedness invariant, exact effect of the calls |
| C66 | granting requests comes to an end | Granting | induction on those who wait, refinement to the steps of the request model |
| C67 | what release gives back | Release | refinement to the steps of the request model, induction on the grants |
| C68 | scheduled_time and scheduled_priority | SchedTime, Frame | invariant over calls (a component that is passive, data or current has no scheduled time) |
| C69 | peek | SchedTime | heap invariant |
| C70 | monitors of resources | ResMon | invariant; calls only add tallies of the present moment |
| C71 | failed() | Failed (Fate) | walk over all calls: a call doesn't touch the flag of a component it isn't about; case analysis for the others |
| C72 | interrupted components | Failed (Fate) | the same walk, with the record of the component fixed |
| C73 | place of an item in a store | Places | walk over all calls: where the items and their priorities come from; the inserted place by the sorted order of the store |
| C74 | rescan | Rescan | induction over the waiting components and, for each of them, over the items |
| C75 | arguments of distributions | DistArgs | case distinction, induction over the values of Pdf and CumPdf |
| C76 | automatic scale of histograms | MonScale | induction over the widths |
| C77, C78 | reading the tallies back | MonRead | the signal read from rows; sorting by keys |
| C79 | datetimes | Datetime | algebra; invariant over resets |
| C80 | a single server queue, from beginning to end | Process, Kernel | invariant that describes the complete state, induction over turns |
| C81 | a queue with several servers, from beginning to end | Process, Kernel | invariant that describes the complete state, induction over turns; counting |
| C82 | arrival and departure rates of a queue | Chain | induction over histories, counting who comes and goes |
| C83 | comparing queues, component_with_name | Chain | representation by lists |
| C84 | producer and consumer with a store between them, from beginning to end | Process, Kernel | simulation by a reduced state, invariant, induction over turns |
| C85 | bank with one clerk, woken up by its customers, from beginning to end; same waiting times as C80 | Program, Kernel | simulation by a reduced state, invariant, decreasing bound |
| C86 | monitor of the value of a state | World | invariant on the primitive updates of a call |
| C87 | bank with several clerks, woken up by their customers, from beginning to end; same waiting times as C81 | Program, Kernel | simulation by a reduced state, refinement of the recursion of Kiefer and Wolfowitz up to moments in the past, decreasing bound |
| C88 | the action of an Event | EventAct | invariant of the life of the Event in arbitrary histories |
| C89 | who claims and requests what | Claiming | coherence of the request model with the queues |
| C90 | honor_only_highest_priority | Rank | refinement to the steps of the request model |
| C91 | the unit of time | Scale, Units | simulation: every call commutes with multiplying all times |
| C92 | Poisson | Poisson | exact inverse transform; law of the number of products of uniform numbers, by induction and integration |
| C93 | abbreviations in Distribution | DistSpec | lists of characters; the finite table of names is checked completely |
| C94 | splines | Spline | induction over the rounds of de Casteljau; polynomials |
| C95 | regular_polygon | RegPolygon | induction over the rotations |
| C96 | law of bounded samples | Dist | C39_outcome, independence, geometric sum |
| C97 | components exchange roles | Rename, Program | every kernel function commutes with a permutation of the components |
| C98 | as_resampled_dataframe | Monitor, Resample | invariant of the loop, C45 for the grid, the signal of C18 for the values |
| C99 | register, deregister | Registry | Python's == and in for salabim objects; induction over the calls |
| C100 | print_histograms(exclude) | Registry | same == ; every nonempty exclude is refused by a resource or state |
| C101 | colorspec_to_tuple, colorspec_to_hex, colorinterpolate, is_dark, background_color | Color, Util | strings as lists of characters; the table of names is a parameter |
| C102 | all calls of the kernel | Kernel, Queue, Heapq, Rank | simulation for any increasing mapping of the priorities that keeps 0 |
| C103 | ItemFile.read_item_int, read_item_float, read_item_bool | ItemValue, Util | grammar of decimal numbers against a deterministic scanner, both directions |
| C104 | user_to_screen_coordinates, screen_to_user_coordinates, xy_anchor_to_x, xy_anchor_to_y, on_mousewheel, do_pan, unzoom | View | invariant over calls and mouse events |
| C105 | set_start_animation, simulate_and_animate_loop, an_go, an_menu, an_single_step, speed, paused, synced | AnimClock | invariant over calls, clicks and rounds of the loop |
| C106 | Animate, update, x, y, ... | Tween | speed bound by induction over histories of updates |
| C107 | AnimateQueue: update, show, remove | QueueAnim | invariant over histories of updates |
| C108 | ImageContainer: init, get_image; make_pil_image (image ident) | Movie | rounds by floor, invariant of the screen |
| C109 | animation_parameters (video), simulate_and_animate_loop (video), _save_frame, insert_frame, video_close, an_half, an_double, paused | Video | invariant over histories |
| C110 | insert_frame, resize_with_pad | Pad | bounds of rounding |
| C111 | animation_parameters (video with a star), insert_frame | Snapshots | induction on the pattern |
| C37-C41, C57 | distributions | Cdf, Pdf, Dist, Expect | exact inverse transforms; expectation as a Riemann integral |
| C42 | generators | Generator, GenStart | machines on arbitrary streams |
| C43-C47 | utilities | Util | functional specifications |
| C48, C49, C54, C61 | trajectories | Movement, Trajectory, Heading | real analysis |

The provisos are in the statements of the claims and in the notes in `MANIFEST.json`. Partial are C20, C21, C29, C32, C38, C41, C43, C46, C53. In each case the
full claim is false in the code, and a counterexample theorem shows that.

## Deviations found in the code

Counterexample theorems exist for most of these (the names are in `MANIFEST.json`).

* hold of a scheduled component or activate in the past that raises has already changed the status (C05); a negative remaining duration makes `resume` raise
  after the level was changed.
* `skip_standby` may make a standby component miss its turn (C08).
* A preempting request bumps more claimers than needed, and also when it can't be honoured afterwards (C32).
* honor_only_first, honor_only_highest_priority and interrupted requesters can leave requests that fit waiting (C29).
* `trigger(max=0)` lets everybody continue (C34).
* `rescan` loses an item if a requester's filter accepts two items; `from_store` with a key and several stores raises unless the item is in the last one; a
  wanted item that waits for room makes the store recurse without end (C35, C36).
* Mean of Constant and Erlang in another time unit; Pdf with random number 0; Pdf with nested distributions (C38, C41).
* Level monitors with stats_only, caches after switching off (C20, C21).
* `Queue.append` ignores the priority; `copy(copy_capacity=True)` of an empty queue has available quantity inf (C53); `Queue.insert` breaks the order (C12).
* `pop(i)` and `del` out of range (C64); percentile at a position of a value (C60); `interpolate` with t0 = t1 (C43); names `x.` and `x,` collide (C46).
* `Poisson.sample_fallback` raises for a random number 0 (C92).
* External needs three letters in Distribution, the documentation says one (C93).
* `as_resampled_dataframe` compares all monitors with the off value of the first one, and shows moments of the internal clock after `reset_now` (C98).
* a `Queue` with the same components as another one counts as registered already, and `deregister` may take out the other one; a `Monitor` compared with anything else raises TypeError, also inside `register` (C99).
* `print_histograms(exclude=...)` of a resource or a state always raises TypeError (C100).
* `#` colour specifications with signs and blanks are accepted, and so is a foreground colour like ("fg", 100), after which "fg" recurses for ever (C101).
* The first corner of `regular_polygon` is not at the initial angle, the last one is (C95); Catmull-Rom splines depend on the direction of the axes (C94).
* The generator with disturbance, spread with duration, force_at (C42).
* `slice` with modulo: a window that is open at the moment of slicing is counted to its end, a window over a multiple of modulo misses the first one (C23).
* `occupancy` of an anonymous resource with `initial_claimed_quantity` starts at 0 (C70).
* `wait_for` uses `priority` instead of `request_priority` for the place in line.

## Not modelled

Animation (2D/3D, video, audio, UI), tracing and printing, pandas and numpy conversion, greenlet/yield mechanics (a process is an arbitrary sequence of calls),
the random number generators themselves, formatting of datetimes, reading and writing of environments.

## How to read the mutation log

`failed` in `seeded/LOG.jsonl` lists the declarations that stopped compiling after the edit. A supporting lemma may stop compiling just because its
proof follows the shape of the definition, and then the modules that import it are not rebuilt. So a failing supporting lemma does not show that the
claim theorem notices the bug. `verdict` keeps these apart: only "claim theorem failed" (or an entry with `refuted`, where the statement of the claim
theorem was evaluated to false on a concrete history of the edited model) shows that; "inconclusive" entries are open, and "survived" entries are gaps.
