# Formal model of pipeawesome2

This directory holds a machine-checked model (Lean 4) of the Rust program in
`/repo` and proofs of the properties listed in `properties.jsonl`.

## Layout

* `lean/Verif/Model/*.lean` — the model, function by function, every definition citing file and lines.
* `lean/Verif/Spec/*.lean` — small specifications, written without reference to model helpers.
* `lean/Verif/Lemmas/*.lean` — auxiliary lemmas.
* `lean/Verif/Props/*.lean` — the property theorems, each with an `example` showing that its hypotheses can be met.
* `MANIFEST.json` — property -> theorems.
* `seeded/LOG.jsonl` — mutation log.

## Modelling style

* Asynchronous Rust code is modelled as programs (`Prog`) that issue requests
  (receive, try-receive, send, close, look at a channel, read, write, flush, sleep, ask for an exit status) and continue with the
  response. Function-level theorems hold for *every* sequence of responses, i.e. for every behaviour of the other tasks and of
  the operating system.
* `loop` is modelled by iterating a loop body; `LoopRuns` is a complete run with its events, `LoopPartial` a run that need not be
  over. Theorems quantify over all finite runs.
* Tasks running together (`Model/System.lean`): an `Execution` is any interleaving of the events of the tasks in which every task
  follows its program and every event is possible for the channels at that moment. Indices without a task are surroundings that may do
  anything. Nothing is assumed about scheduling.
* Dropping a channel end when a task ends is modelled as closing the channel (every data channel has exactly one sender and one receiver);
  for a relay this happens for its input and output, for a failed junction only for its inputs since the senders live on in the component.
* A task that waits: `Task.Awaits` is the request it has made, `Impossible` says that no response is possible now.
* `join` (`Model/Poll.lean`): several activities on one task are polled in order, each until it cannot go on. Needed for C22, C24, C25.
* Networks (`Spec/Network.lean`): components with ends; `Wired` = each channel has one writer and one reader; `Undisturbed` = the
  surroundings leave the channels between components alone; `Unhindered` = the surroundings make nobody wait; `SelfContained` = no channels to the
  surroundings; `Acyclic` = there is a ranking. `Props/Runtime*.lean` shows that the runtimes the program builds are such networks.
  A loop that goes through a child program's own input and output is not a circle of channels and is not covered by C56.
* `Result` stays data (`Except`), `panic!`/`unwrap`/`assert!` become explicit error values (`none`, `.panic`).
* `Vec` is `List`, `BTreeMap` a key-sorted association list, a `HashMap` an association list in any order, the order of an iteration
  an arbitrary parameter. `String` is `List Char` in the configuration part; bytes are `UInt8`.
* `usize`/`i32` counters are `Nat` unless overflow/underflow is the point of the property (the size count of buffers: an underflow is an
  outcome; priorities: `isize` of a 64 bit machine, overflow is an outcome). In particular the counter in `generate_new_key` (an `i32`), the sums
  of counts and the numbers of components and channels are unbounded.
* The parser (crate `peg`) is a set of functions from a text to a value and a rest, ordered choice, greedy repetition.
* The waiter's six maps by component type are one table keyed by type and name; channels are numbered in the order in which they are made.
* `Lemmas/Replay.lean`, `Lemmas/Script.lean` and `Lemmas/Drive.lean` make or replay concrete event lists by computation; they are used for examples and
  refutations (existence of one execution), never for a general claim.

## Plan per property

* **C01** Byte streams are cut into exactly their lines, however the OS delivers them. Model `isSplit`, `readBuffer`, `motionRead` over a stream given as the list of its future reads. Spec: `specLines`, a five-line recursive line splitter. Theorem: reading to the end yields `specLines (bytes)` for every chunking; plus characterisation of `specLines`.
* **C02** Framing never loses, duplicates or invents a byte, for any separator list and any read fault. Invariant over any number of calls: delivered ++ held back = consumed, all separator lists, all read scripts incl. errors.
* **C03** End of stream and read errors are reported as such. Step theorems on `motionRead`: finished iff nothing is left; error is surfaced; lines before the failing read.
* **C04** Separator lists: message boundaries depend only on the bytes. General separator lists: positive theorem for prefix-free lists of 1-2 byte separators; concrete counterexample for a 3-byte separator. Partial.
* **C05** A forwarded message reaches every output, once, unchanged, in the declared order. `motionWorker` as a program over channel requests with arbitrary responses; theorem over all its traces.
* **C06** Pipe variations T, F and C decide exactly what happens when a receiver is gone. Decision-table theorem over all traces of `motionWorker`.
* **C07** A relay copies its whole input in order and then closes its output. `motion` as loop of `motionWorker`; induction over loop traces.
* **C08** Occupancy notifications are sent exactly once per message and once at the end. Projection of the trace onto notification sends, by induction over the loop.
* **C09** Spies see exactly what crosses each labelled pipe. Projection of the trace onto spy sends.
* **C10** A junction serves its inputs in numeric priority order, lower numbers first. `initializeStdin` (stable insertion sort + grouping as coded) and `iteration`; theorem about traces of a pass and over runs.
* **C11** A higher priority number is served first, as documented. Negation proved for all pairs of different priorities.
* **C12** Inputs of equal priority are treated alike. Exact characterisation of the grouping; negation witness; positive theorem for the smallest priority (`_partial`).
* **C13** A junction copies every input message to all outputs in one common order that respects each input's order. Loop-trace theorem: per-output offered sequence = received sequence; per-input projection.
* **C14** A junction ends exactly when all its inputs have ended. Loop invariant on remaining inputs; closing of all outputs on end.
* **C15** When a junction fails, everything downstream of it is told. Negation: trace theorem, a failing run performs no close on any output. Partial: inputs are dropped.
* **C16** A paused regulator lets at most one more message through. Two-task transition system (regulator program + control handle) over the bounded(1) control channel; inductive invariant.
* **C17** Pausing never loses or reorders messages. Loop-trace theorem for `start_secret` for all control responses.
* **C18** Pause and resume are idempotent and strictly alternate on the wire. State machine of the control handle; alternation by induction over call sequences.
* **C19** Flow control pauses at or above the high watermark and resumes at or below the low one. `manageStep` function on observed reports; decision theorem and invariant over histories.
* **C20** Flow control never leaves the regulator paused when it stops. Invariant over histories; exit theorem.
* **C21** With properly ordered watermarks flow control does not flap. Step theorem for low < high; flapping witness for low >= high; link with `regulator_set_watermark`.
* **C22** A buffer accepts messages regardless of flow control. Transition system of buffer + manager + regulator; reachable stuck state proved stuck under every continuation without new regulator input. Negation.
* **C23** A buffer delivers everything it accepted, in order. Transition system with unbounded middle channel; invariant.
* **C24** A buffer's size count never goes below zero. Poll-order transition system with arbitrary amounts of progress; inductive invariant.
* **C25** A buffer's size count is right under every interleaving. Negation: concrete interleaving. 
* **C26** Polling back-off is bounded and resets. `BackOff` state machine.
* **C27** Connection strings mean what the documented syntax says. PEG parser as functions on `List Char`; spec: `render` of a concrete-syntax description and its `meaning`; soundness and completeness.
* **C28** Parsed connection sets are always well shaped. Corollary of the completeness direction, stated on the result only.
* **C29** Priority literals denote their number. Parser rule vs. integer spec.
* **C30** Expanding connection strings keeps everything else. `convertConnections` over sorted association lists.
* **C31** Lint reports exactly the discrepancies. `lint` vs. membership specification.
* **C32** Configuration edits touch only what they name. Setters over association-list maps; frame/idempotence/commutation theorems.
* **C33** The watermark command stores ordered watermarks. Direct theorem.
* **C34** Splitting connection sets into hops preserves exactly the hops. `breakApart`, `rebuildPairUp` vs. spec `hops` (zip with tail).
* **C35** Processing stops abnormally exactly on malformed connection sets. Panic as explicit error value; iff theorem.
* **C36** Invalid connection strings are reported, never crash. Negation from C35.
* **C37** Inserting junctions does not change who feeds whom. `addJunctions` parameterised by the hash iteration orders; spec: contraction of junctions.
* **C38** After junction insertion nothing but a junction is connected twice. Counting theorem on the result.
* **C39** Generated names are fresh. `generateNewKey` with fuel and pigeonhole theorem that fuel suffices.
* **C40** Every program that is a source gets its exit status consumed. `addLaunchExitSpies` vs. spec.
* **C41** Prioritised inputs into any component work through an automatic junction. Negation: theorem for all such configurations.
* **C42** Wiring connects each hop exactly as configured or reports why not. `getWaiter` as fold with explicit component table; theorem on success result and on the first error.
* **C43** A lint-clean, legal configuration always wires up. Composition theorem.
* **C44** Component identities are unambiguous. Invariant of the id tables.
* **C45** The outcome of a run reports every failure. `waiterResult` fold; permutation and sortedness.
* **C46** Sorting reported errors by time is well defined. Negation witness; positive part when all errors carry a time.
* **C47** Starting aborts exactly when a buffer is monitored twice. `regulatorSettings` with explicit panic; iff theorem.
* **C48** The drawing shows exactly the configured hops and components. Graph functions; edges = hops; injective node ids; cluster uniqueness.
* **C49** Written configurations read back as themselves. Field-level model of the untagged decoding order; text formats themselves (serde_json/serde_yaml) are not modelled.
* **C50** Environment settings on the command line are parsed as NAME=VALUE. `parseEnv` on `List Char`.
* **C51** A program's exit status is reported once, after everything else. `launchStart` program: interleaving of three relay traces, then exit part. `C51_apart`, `C51_own`: an exit port connected to the input of its own program is the only way for it not to have a channel of its own, and then the run does not end as long as nothing fails.
* **C52** Pipe variations apply to the exit port. Negation: theorem for all variations.
* **C53** A pipeline delivers every line to its end in order, for every schedule. Transition system of tasks over bounded channels, invariant by induction on schedules.
* **C54** A pipeline cannot deadlock and ends. Progress + decreasing measure on the same system.
* **C55** Every branch of a fan-out receives the whole stream. Local invariants per component and per channel for arbitrary topology.
* **C56** Loops can fill up and stop. Reachable stuck state for every loop of bounded channels; with an unbounded channel not stuck. 
* **C57** Error texts name the right components. Accessor model; theorem per error kind.
* **C58** Standard output carries only what flows to the '-' drain. Print effect as explicit output of the model; negation.
* **C59** Requests to a regulator that has ended. Refuted for failing ends (the control channel stays open), proved for normal ends.
* **C60** `convert_to_deserialized_connection`, with arbitrary readers for JSON and YAML.
* **C61** Time and pipe of the failures that components end with, for all components of every built runtime.
* **C63** Progress of networks without circles, junctions and surroundings included.
* **C64** Invariant of building: what each entry of the waiter's tables contains, given the hops; then the network conditions.
* **C65** C55 for the network of C64, and the exit parts, which are no such components, by themselves.
* **C66** Progress of the network of C64 by ranks (C63), with exit parts and counts as surroundings that are never in the way.
* **C67** Events that get something forward are limited (per activity, by what it receives, ranks once more); after the last of them the channels
  never change again. The activity C66 then names can go on for ever, so in a fair schedule it does: either it gets something forward, or it is a
  junction or count that has looked in vain at everything, against C66.
* **C68** Exact conditions for reading each kind of record; refuted for connections.
* **C62** `Waiter.sysWith` is `Waiter.sys` with some files that cannot be opened. The network without the drains concerned satisfies the assumptions of C55
  (`Assembled.runWith`). `C62_refuted`: the channel of a faucet without a file is touched by its reader only, whose first request is to receive from it, which stays
  impossible (`starved`). `C62_junction_refuted` by `node_finished` and `edge_complete`.
  `C62_ends_partial`: a drain without its file does what a regulator without output does (`shutting_sys`), and C67 is proved for runtimes with such drains (`Rigged`).
* **C69** Hanging runtime, found and checked by a simulator proved sound (`Lemmas/Simulate.lean`), polled in the join order of `Waiter::start` with the
  capacities of the code (`Model/Joined.lean`); then nobody of five activities waiting for each other ever does anything again.
  `C69_standstill_partial`: what else can be the matter when nothing goes on (progress by ranks as in C66, managers and counts included).
  `C69_ends_partial`: over a whole fair schedule only the second can last: a paused regulator's manager would have heard of a size at most low, or its buffers still
  hold messages, so what they feed waits, by ranks, for another paused regulator further on. `C69_delivers_partial`: with unlimited control channels everything ends.
* **C70** C24 for the buffers of every runtime: activities next to each other among those polled are themselves polled in order (`Polled.among`); each part of a buffer is
  at most one notification behind what it has heard, each channel holds at most eight.
* **C71** Everything together, in terms of the hops as written. Junctions put in have what they need on both sides, and make no circle: what is behind one could be
  reached before (`circles_old`, `Inserted.circleFree`). After insertion one hop enters each component as written, from where its messages came before or from a junction,
  which mixes what comes over the hops written. The specification (`Conveys`, `Delivers`) speaks of no channel and no junction put in.
* **C72** `Asks` (what a command line means) and `Lacking` (what can be the matter with it) are written without reference to `userAction`; `Possible` is what clap hands over for
  the declarations of `get_clap_app`. Case analysis over the declared commands; numerals by induction.
* **C73** `Says` (which edit a request is about) and `LastSaid` (the last edit about a setting wins) are written without reference to `process_action`; two configurations are
  `Alike` if they say the same in whatever order. Each command keeps configurations proper (`Edit.proper`), so what it prints is read back by the next; induction over the chain.
* **C74** `Config.Ready`, `Config.Faulty`, `Config.Malformed` say what can be the matter with a configuration without reference to `lint`. Case analysis over requests, using C31, C32,
  C35, C42 and C72. Cases in `Props/EndingsExample.lean`.
* **C75** `Failed`, `StopsAt`, `Config.Breaks` say what is fatal for whom in terms of hops and files, without reference to results. Per activity, its result is an error exactly if something
  fatal is in its trace (`node_honest`); per component by its way to combine results; then C45. The sound part of C71 gives delivery from the absence of trouble.
* **C76** `Dot.Id` is Graphviz's definition of an identifier; `DotReadable` asks it of everything written as one. Membership in the diagram as for C48.
* **C77** `Hop.Feeds` says who writes into the pipe of a hop. Which variation a task got is read off the assembled components (`Assembled.varies`); per activity, by induction over its rounds: after
  something fatal there are only closings (`node_stops`), without something fatal the end is orderly unless a pipe is `F` (`node_ends_well`), after a refusal nothing more is read
  (`node_gives_up`), and at the end the inputs are closed (`node_shuts`). Runs in `Props/VariationsExample.lean`.
* **C78** `ReadsFrom` says that the reads of a stream in a run were answered as `motion_read_buffer` answers on a list of chunks (Model/Source.lean); by C01 what came is the beginning of the
  lines. Mixtures (`Mix`, Spec/Mix.lean) are inductive: take the next element of any of the sequences. Mixtures of mixtures are mixtures, beginnings of mixtures are mixtures of beginnings; then
  induction over how streams lead to a component (`Config.Brings`). C71 now also says `Mix`, which is more than a permutation with each part in order.

* **C79** Two texts with different fixed beginnings, or cut at the first separator, are equal only if their parts are. Characters in quotes form a prefix code.
* **C80** What `Junction::start` returns decides what it has closed (C15); `Assembled.result` ties an error to something fatal. A reader that has ended without failing has been told that
  its input is closed (`node_finished`), so someone closed it (`edge_complete`), and only the junction could have. `C77_junction`: between two receipts from the same input a junction without
  `C` and `T` outputs has had a message accepted (`junction_between`).
* **C81** An activity that closes an output has nothing but closing left to do (`node_last`), so unless something failed all its inputs have ended. An input that has ended was closed before, by what
  writes to it; the exit part of a launch begins after its relays have ended. So the end of an activity's inputs is preceded by the end of the inputs of whatever leads to it, strictly
  (`Assembled.before`), which cannot go on for ever in a list of events.
* **C82** Who waits for room waits for the reader of a full channel, which is not waiting for something to come, so it waits for room too, or for a program to take something in, which waits for what
  it prints to be taken, by an activity that waits for room in turn. As the channels inside buffers have room, this goes on along `HoldsUp` only, on which nothing leads back
  (`Rigged.unjammed`). The deadlock of `C82_refuted` is a run found by driving a pipeline, its standing still is checked by a function proved to be sound (`Waiter.motionless_sound`).
* **C83** Per hop: what the reader got and what the channel holds is what the writer put in (`Assembled.hopHolds`). Per component between two hops: what it offered to the second is all it got but at
  most one message (`Conduct.copies`). `Along` adds these up; it is a specification of ways, capacities come from the kinds of the components only (`Hop.room`, `realCaps_hop`).
* **C84** The counter of a buffer reports every rise by steps of one (`Climb`), so the manager cannot overlook that the size passed the high watermark; what it was told last is low only if little was counted
  (`manager_low`); when it has asked to pause, the regulator offers at most one more (`C84_paused`). The rest is C83 from that moment on (`C83_since`). The 29 are the channels between buffer, counter and manager
  and the hands of each. `C84_exceeded` shows that the buffer can hold 20 more than the high watermark, `C84_unbounded` that an unmanaged buffer can hold any number.
* **C85** Programs are functions from what has happened to them to what they want next (`Program`), pipes hold `room` bytes, a run (`WorldRun`) interleaves steps of activities, bytes entering and leaving pipes and
  what happens to programs. Its activities make a run of the runtime (`WorldRun.core`), so everything proved about runs holds for it. Where C66 assumes that what surrounds the code answers, here it follows: if nothing
  can happen, a program that has not ended waits for its input or for room (`program_waits`), so either the relay that feeds it or the one that reads from it waits too, and this can be followed round for ever unless
  something leads back to where it started (`Rigged.all_over`, which uses `progress_held`: C66's argument with some activities held up from outside).
* **C86** Puts C78 (bytes between streams) and C85 (programs and pipes) together. What a program has read is a prefix of what went into its pipe, which is a prefix of the messages its relay has received
  (`Rigged.fedReceived`, `WorldRun.taken`); what its streams supply is what it has printed (`WorldRun.supplies`), so C78's hypothesis on streams of programs is a consequence here. `Config.Gives` follows the
  programs back to a file. That no stream fails if programs read to the end is `Assembled.quiet`. `C86_unix` assumes only that no file or notification fails and that nothing more can happen.
* **C87** Total correctness. The bound on what the components do (C67, C68) is made to depend only on what the sources have supplied (`Rigged.bounded_by`); going along the connections in order (nothing leads
  back) the bound is found for one program after another: a program that has read only so much has written only so much, because it is `Finite`. So only finitely much happens (`Rigged.worldBound`), and when
  nothing happens any more C85 applies. The assumption on schedules is weak fairness for each agent separately (`Agent`: an activity, the pipe to a program, a pipe from a program, or a program).
* **C88** C82 with programs. `Rigged.motionless`: when nothing can happen, programs included, then nothing goes on inside in the sense of C82, so C82 applies; from empty pipes and channels one goes back to
  who should have supplied something, who has not ended either, and so on: one gets round (`circle_before`). For `C88_refuted` the state is checked by `Waiter.frozen`, whose soundness is proved: no rule of
  `Next` applies at all. `C88_written` (Lemmas/LoopsWritten, Props/WorldLoops): a loop of what runs contains a component of the configuration, as at most two inserted junctions follow each other, and is a loop of what is written.
* **C89** C65 (what comes through an exit port) with programs: the status that the code is told is that of the program's last event (`Waiter.WorldRun.status`, `.final`). `C89_pipes` is by induction over runs.
* **C90** `Spec/Solve` has no model in it but programs: a `Deed` is what a program read, printed and ended with; `Program.Meets` says that a program reads to the end and that its deeds are in a relation. `Config.Solves` (Props/WorldSolve) is a system of conditions on deeds that mentions neither schedules nor channels. `C90_solved`: deeds of a complete run are a solution (C78 and C86, which now include exit ports: the text of an exit code is one line, `Lemmas/Decimal`). `C90_unique`: if two solutions differed, then from any program where they do one could go back to another, for ever. `C90_determined` puts them together for two runs that have nothing in common but the configuration and the relations. The hypotheses of `C90_determined` are met by a network with a join where two orders of lines do happen (`kiln_determined`: what *every* complete run of it writes). Drains to `/dev/null` are excluded since they write nothing.
* **C91** `Spec/Doze`: a component that looks again and again `Dozes` if it has also passed on everything; `AtRest` means that nobody but dozers can do anything, and that no regulator is paused. Whoever waits has passed on everything it took (`waiting_passed`), and behind whoever waits for input the channels are empty (C88, C53). At the level of the configuration as written: processing it adds no loop without a buffer (`Laid.loopsBuffered`), and what is before a program is gathered along `Brings` as in C78, with equalities instead of beginnings. An exit port has told the exit code or nothing. The example is a loop round which lines go until nothing is left of them.
* **C92** `Spec/LineByLine`: `Program.LineByLine f` says what it is for a program to make the lines `f p l` of each line `l` on output `p`; `Among` compares lists as multisets. `Hop.flow` is what a hop brings if the programs have read these lines, `Balances` the equations, `Grants` the inequations. The bound is an induction over the run: whatever a program prints is the beginning of what is due for what it has read (`Waiter.WorldRun.due`), so C78 applies with what is due, which the induction bounds. At rest C91 turns this into equations. Exit ports are excluded because the exit code is not made line by line. The example is the loop of C91: whatever else happens, two lines arrive in the drain.
* **C93** `C93_rests`: if what the programs are given is limited, then so is how often anybody gets anything forward (`Rigged.limitedMoves`, with C87's bounds), so from some time on everybody merely looks, and fairness turns that into rest. `C93_given`: a plan limits what programs are given (C92). `C93_computes` puts this together with C92; `C93_iff` adds the converse. `C93_final`, `C93_stays`: rest lasts; the invariant (`Waiter.Later`) is that only those who dozed have done anything, and only looked (`Ev.looks`, Spec/Looks). This uses that no channel has capacity 0. With managers a size report may still be sent, so this part is without managers. `C93_fair`: every run has a fair continuation (everybody in turn); it shows that the fairness assumptions of C87, C90 and C93 can always be met. Examples: the loop of C91 continued for ever, and the same loop with a program that gives every line back, which never comes to rest.
* **C94** `MErr.Says` (Spec/Causes) gives for each error the event it tells of. `C94_cause`: every error in the outcome of a run tells of the last event, apart from closings, of some activity of the component named, on one of its hops. It goes through the programs of the relays, regulators, junctions and exit ports (`relay_tells`, `regulator_tells`, `junction_tells`, `exit_runs`). `C94_once`: no component is named twice; the keys of the component tables are distinct (`getWaiter_keyed`). Example: a program whose input cannot be written to.
* **C95** `Backs` (Spec/Backs) adds to who holds up whom that a paused regulator waits for the outputs of its buffers; `Unbraided` says that nobody holds up themselves. Once nothing moves any more (`Waiter.calmed`, `Rigged.quietens`) a paused regulator has a buffer that is not empty (`Assembled.pausedBelowOf`), whose output is held up by somebody, and so on along `Backs`, which does not go on for ever. `C95_ends`, `C95_computes`, `C95_unlimited`, `C95_rests`: everything ends, or comes to rest, with the results of C87 and C93, or a manager is left waiting for ever (`LeftWaiting`). Adding spies and merging junctions keeps `Unbraided` (Lemmas/Braids). Examples: a regulator that is paused and resumed while a program works, and a loop.
* **C96** `Relieved` (Spec/Relief): whatever the input of a watched buffer can hold up is downstream of the regulator, and watched buffers do not hold up each other. When nothing moves, nobody is paused (`Assembled.unpausedBut`); whoever has not ended is then downstream of a regulator whose manager waits for room (`Rigged.undone`), as is, since it has not ended, that regulator itself, so there is none (`Assembled.relieved`). `C96_ends`, `C96_computes`, `C96_real`. Processing a configuration without exit ports keeps `Relieved` (Lemmas/Relieves). Example: the sluice of C95 with another buffer and the capacities of the code. A way round the disagreement in C69.
* **C97** `Comp.command` (Model/Spawn): the command `Launch::start` builds before `spawn`; `AsConfigured`, `PipedAs` (Spec/Spawn). `C97_wired` from what `expected` says of launches (C42), `C97_written` as processing keeps `launch`. `C97_piped`: processing neither adds nor removes hops at the streams of programs. Trusted: `Command::envs` sets one after the other on top of the inherited environment. Not modelled: finding the program, and relative paths.
* **C98** (Props/Tolerant) `Lenient`: every pipe out of a junction has variation `C` or `F`. Then nothing that a junction cannot get over (`Act.ruins`) happens to one (`lenient_ruins`, from C80), so C62 and C75 apply without assumptions on junctions. Being polled as in the code (`Polled`, `Waiter.joinedWith`) is needed for C70 only: the counts of buffers. `C70_no_underflow` holds for runtimes in which drains cannot create their files, too (`Rigged.no_underflow`). `C98_world` (Props/TolerantWorld) is the same with the programs and their pipes in the model (C87): programs may end or stop reading whenever they like. Example: one that ends after its first read.
* **C99** (Props/Unheard; Lemmas/Unheard) a regulator that fails is not paused (`failed_even`: it has taken an even number of requests) and does not close its control channel, of capacity 1. A request it has not taken stays in there for ever, so its manager has made an odd number of requests and cannot make another; but a manager ends only after an even number (C20). `C99_exists` (Props/UnheardExample) is a pipeline and a run in which that happens.
* **C100** (Spec/Burst, Props/Burst; Lemmas/Burst) `Waiter.Burst` describes the situation by what each activity awaits and what is in the channels between them. It is an invariant (`Rigged.burst_step`): regulator and input wait on empty open channels, the output has ended, the manager has made an odd number of requests and knows of more than the low watermark (`manager_insists`, by C19 and C20), the count has said all it knows and its input channel is open (`count_insists`, by C24). `C100_exists` (Props/BurstExample): three lines are let through, the disk is full at the first, the second is refused, the third stays in the buffer. The theorem needs a buffer fed directly by its regulator.
* **C101** (Model/Compare, Props/Compare) comparing errors, `pull_journey`, spellings of ports; by cases. The comparison ignores whole kinds of errors, which is why `e == e` can be false. What C57 finds missing in reports of errors on reading, the destination, is what `pull_journey` gives and nobody asks for.
* **C102** (Model/FakeRead, Props/FakeRead) the source of the tests, and writing of messages; by induction on what is left, then C01.
* **C103** (Props/Priority, Lemmas/JunctionOrder) numbers of inputs in the running program: inputs of other than the smallest number are in groups of their own, so in the round in which a message of such an input is
  taken nothing came before but empty inputs (`only_looked`); then C10, and that what is closed and empty stays empty. `C103_written`
  (Props/PriorityWritten): wherever two connections end, processing puts in a junction, whatever the component, so this is about all of them.
* **C104** (Props/Sharing, Lemmas/JunctionShare) inputs of the same number: `old_priority` is never updated (junction.rs:84-96), so only those of the smallest number form a group. In each full round each input of
  the first group is asked at most once, and all of them unless all outputs are gone (`once_in_round`, `rounds_share`); an interval cuts two rounds, hence the two. `C104_starved` is the disagreement of C12 in a run.
  Props/SharingWritten: the same of connections as they are written; channels are numbered in the order of the keys of the hops, which are strings.
* **C105** (Props/Endless, Lemmas/Endless, Lemmas/FairExists) liveness where the streams never end, so that nothing can be counted down. By induction against the direction of the flow: what is in a channel is taken out
  (`Waiter.Endless.taken`): otherwise the reader receives only so much (a junction: by `junction_shares`, C104), hence says nothing any more or only looks and sleeps (`rests`); who says nothing any more waits for
  its only input, as there is room again and again in what it writes to (`waits`, `room`). With different numbers it is false of the code (C12, C104). The bounded channels for notices of a buffer hold nothing up, either: the count never waits, and looks into both in every round (`told`).
  `C105_written` (Props/EndlessWritten) speaks of the connections of the configuration file: what `manipulate` puts in between hands on (`Laid.feeds`), and gives no junction two numbers (`Laid.sameNumbers`).
  `C105_uneven_refuted` (Props/Starving, Lemmas/Periodic): with different numbers a fair schedule that repeats six events for ever starves the connection of the less preferred number. It is fair, as the writer of that
  connection finds its channel full and cannot go on. `fair_periodic` makes fair schedules of events repeated for ever.
  What does hold with different numbers is `C105_favoured_reaches` and its companions: only the connections from the component in question onward need be of the least number of their junctions (`Favoured`). `C105_written_favoured` (Props/FavouredWritten) is the same of the connections as they are
  written: whatever can be reached in what `manipulate` makes of them is traced back (`Traced`). `C105_drained` and `C105_written_drained` (Props/EndlessDrain): what arrives at a drain or program is also written to it.
* **C106** (Spec/Stall, Props/Endless, Props/EndlessDrain, Props/Stalled) C105 in a more general form: schedules that are fair but for a set of files and streams that need never answer (`Waiter.FairBut`), as a terminal at which
  nobody types, or a program that does not read. A node that has gone silent then waits for its channel, or for such a stream; in the first case what is in the channel is taken out as before, in the second it has passed on
  all that it had. What is excluded is that something reached from the component in question writes to one of them (`Waiter.Answering`). `C106_written_lasts` shows that there are such schedules. `C106_holds` (from C83) is the other direction. What waits for ever may be
  reading, writing or flushing (`node_flushes`, Lemmas/Flushes: a component flushes only what it writes to).
* **C107** (Props/Piped, Props/PipedExample) C78 for streams that need not end, by C106: where one stream leads to a component (`Config.Brings`), what has arrived is at all times the beginning of what was read (`C107_begins`, all
  runs; `C107_mixes` for several streams), and all that was read arrives (`C107_arrives`) and is written, to the byte (`C107_pours`).

## Trusted base

* Lean's kernel (4.33.0). No axioms of our own, no `sorry`, no compiler trust. `#print axioms` for the 406 theorems named in the
  manifest gives subsets of the three standard axioms:
  * none: `C04_refuted_for_overlapping_separators`, `C04_refuted_for_three_byte_separators`;
  * `propext`: `C02_no_byte_lost_or_invented`, `C22_unmonitored_partial`, `C45_reported`, `C48_identifiers`, `C61_lost`, `C66_components`, `C82_components`, `C85_components`, `C101_same`, `C101_equivalence`, `C101_itself`, `C101_blame`;
  * `propext`, `Quot.sound`: `C01_lines_characterised`, `C03_complete_lines_characterised`, `C03_finished_iff_nothing_left`,
    `C04_chunking_irrelevant_partial`, `C05_fan_out`, `C09_spies`, `C12_refuted_starvation`, `C18_alternate`, `C18_calls`, `C18_idempotent`,
    `C21_flaps`, `C24_changed`, `C24_current`, `C24_ends`, `C24_final`, `C24_reports`, `C24_then_ends`, `C25_refuted`, `C26_back_off`, `C32_adds`,
    `C32_commute`, `C32_idempotent`, `C32_last_wins`, `C32_only`, `C32_sorted`, `C34_count`, `C44_distinct`, `C44_lookup`, `C45_earliest`,
    `C45_everyone`, `C45_success`, `C46_exactly`, `C46_refuted`, `C46_timed_partial`, `C50_accepted`, `C50_last_wins`, `C59_refuted`, `C79_quoted`, `C101_accessors`, `C102_read`;
  * `propext`, `Classical.choice`, `Quot.sound`: all others.
* The reading of the Rust code in the model's definitions (cited line by line).
* Semantics assumed for libraries: async-channel 1.7.1 (FIFO, bounded capacity, receive drains a closed
  channel before reporting closed, send to a closed channel fails, also if it was waiting), `Vec::sort_by` is a permutation that is sorted if the
  comparison is a total order, and may abort otherwise (Rust 1.81),
  `Join` polls its members in order, each once per poll, on one task (async-std 1.12), `peg` is a packrat-free PEG semantics as above, serde derives as in
  `Model/Serde.lean`, what the JSON writer writes is read back by the JSON and YAML readers (C73, hypothesis `Library.Faithful`), Graphviz keeps one edge per ordered pair of nodes in a `strict digraph`.

## Where the code and its documentation or intent disagree

Each of these is a theorem about the model (`_refuted`), with the part that does hold proved beside it.

* **C04** Separators of three bytes, or overlapping ones, are not recognised across chunk borders. (The program only uses LF and CR LF.)
* **C11** README 710-720: higher priority number first. The code serves lower numbers first.
* **C12** Inputs of equal priority other than the smallest are served one after the other: the first declared starves the others.
* **C15** A junction that fails leaves its outputs open: what is downstream waits for ever.
* **C22** A monitored buffer can stop accepting: its size report waits for the manager, which waits for the idle regulator to take a request.
* **C25** The size count of a buffer depends on the poll order of `join`; with independent tasks it would subtract from zero (a panic in debug builds).
* **C36** `process` and `config manipulate` panic on a connection string that cannot be read; lint, which would report it, comes later.
* **C41** Fan-in with priorities into anything but a junction is refused, although a junction is put in: its outgoing hop repeats the priority.
* **C46, C61** Failures of buffers lose cause and time; the sort of the failures then has an inconsistent comparison (it may abort since Rust 1.81).
* **C48** The drawing merges parallel hops (strict graph) and shows neither variation nor priority.
* **C52** The exit port ignores its pipe variation.
* **C57** Errors of reading and of opening never name their destination.
* **C58** Processing prints a debug line with the configured drains on standard output.
* **C59** After a failing end, a regulator's controller blocks for ever with its second request. In a whole pipeline `start` then never returns (C99).
* **C100** Not a claim that turned out false, but behaviour one would not want: when whoever is downstream of a watched buffer fails while the regulator is paused, the program may hang instead of reporting the failure.
* **C68** A misspelt output port (or priority, or variation) of a component written as a record is not reported: the component is taken for the end (or
  the beginning) of its connection set, and processing panics.
* **C62** A faucet whose file cannot be opened (faucet.rs:94) returns before it takes its output out of its field (faucet.rs:124). The waiter owns the faucet until
  everything has ended, so the channel stays open, its reader waits for ever, `start` never returns and the error is never printed.
* **C80** A junction that fails (junction.rs:177-180) lets go of its inputs but not of its outputs, which the waiter keeps until everything has ended. So what reads from them waits for ever,
  `start` never returns, and the error is never printed. With the variation `T`, documented as "Terminate Pipeawesome" (README.md:665), the program hangs instead.
* **C69** A regulator that waits for room in its output does not look at its control channel (capacity 1). If its buffer fills (pause request sent) and
  becomes empty again (resume request waiting for room) in the meantime, its manager stops reading sizes, the count of the buffer stops reading
  notifications, the buffer stops reading its input, and if the regulator's output gets there, nothing ever moves again. A second source into the same
  junction with precedence is enough to get there.
* **C72** `config empty` and `config connection del` are declared, listed by `--help`, and refused. The format is never told from the ending of the file name (pa2.rs:266-270), since
  `--format` has the default `yaml`. A missing `--id` is reported as "requires further sub commands"; numbers and variables that cannot be read as
  "Command {:?} did not have all required values", with the braces. The help says that the configuration is blank if no file is given; standard input is read.
* **C75** A program that closes its input early (`head`) is not an error of that program's component: what was left for it is lost. Whether the run is a failure depends on timing: if
  the component before it still has something to send over a `|` pipe, that one fails; if everything was already in the channel, the exit code is 0.
* **C76** Labels of nodes are written without quotes (graph.rs:184-187): a component called `node` or `2nd` gives a drawing that Graphviz does not read.
* **C77** `|T|` does not terminate Pipeawesome (README 667): the component that wrote into the pipe ends with an error, everything not downstream of it goes on, and the program ends when all of it has.
* **C79** Pausing and resuming that failed are described alike (waiter.rs:134-135), and 'There are no settings for Faucet' is said of a regulator.
* Not refuted but noteworthy: lint message 0004 has the text of 0001 although it is about what a regulator watches; a drain used without being configured can be captured by a generated one (C40_unconfigured); a loop of bounded
  channels can fill up and stop (C56, README 584-657); `WaiterError::CouldNotResume` describes itself as `CouldNotPause`.

## Not modelled

* Files and their contents, signals; only the outcomes of reads and writes. Processes and pipes are modelled as surroundings (Model/World.lean, used by C85 on): a program is any function of its
  history, pipes are bounded and hand on bytes in order; a program killed by SIGPIPE is one that ends when a write is refused. That a program cannot be spawned is an abort
  (`unwrap`, launch.rs:183-187) before anything moves.
* Text syntax of JSON/YAML, clap's argument parsing (only what it hands over for these declarations) and the printing of the Graphviz document; the texts of errors of the
  operating system are parameters of the error report, and `{:?}` of strings too (modelled apart from them in C79, up to which characters are printable).
* Timing (only that sleeps end) and memory.
* The tests.
