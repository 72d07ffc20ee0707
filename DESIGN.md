# Formal model of NLSR in Lean 4 — design

Source: `/repo` (named-data/NLSR at the pinned commit), read as text only.
All paths below are relative to `/repo`.  The Lean project is `lean/`; modules are under `lean/Verif/`:
`Model/` (the code), `Spec/` (independent specifications), `Lemmas/`, `Props/` (the property theorems, their names begin
with the property's id).

## 1. Trusted base

* Lean 4.33.0's kernel.
* Axioms: only Lean's three standard ones (`propext`, `Classical.choice`, `Quot.sound`).  No axioms are added, no
  `sorry`,
  no `native_decide`, no `bv_decide`.  Section 6 lists the axioms of each property theorem (`#print axioms`, printed
by the
  build of `lean/Verif/Axioms.lean`).  `decide +kernel` is used on closed terms in witnesses and examples; it is
checked by
  the kernel.
* The reading of the C++: every model definition cites the file and lines it models and says where it simplifies.  The
  code
  itself is never run.
* What is said below about libraries (ndn-cxx, Boost, the C++ library) and about NFD.

## 2. Modelling conventions

* C++ objects become Lean structures; methods become total functions that return the new state and the list of
  externally
  visible effects (commands to NFD, sync publications, signals, scheduled timers, file writes).
* The daemon is single-threaded (one Boost.Asio io_context): a run is a list of events.  Timers that are pending may
  fire
  at any time relative to the other events when they are due or later (in the LSDB and routing models: at any time),
which
  covers all schedules.
* Undefined behaviour (erase of `end()`, dereference of an expired pointer, index out of range, conversion out of range)
  and uncaught exceptions are distinct outcomes (`none`, `dead`, `undef`, `updateBad`, …) of the model, and their
absence
  is a theorem, or their presence a finding.
* `std::map`/`std::set` are sorted duplicate-free lists or association lists with explicit lookup; hash containers are
  lists in an arbitrary order that operations (`rehash`) may change at any time.
* Numbers: `uint64_t` sequence numbers wrap at 2^64 where the code increments them.  Costs are `double` in C++.  Route
  costs in next-hop lists are exact rationals (`Rat`); rounding of double addition is not modelled there.  In the
link-state
  calculator costs are an extended type with NaN and the infinities; the code rounds every cost up and only keeps sums
below
  2147483647, for which double arithmetic is exact, so integers are a faithful model.  Conversions from 64-bit
integers to
  double and back (prefix commands, configuration) are modelled with rounding and range.
* Floating-point trigonometry of the hyperbolic calculator is a parameter (an arbitrary distance function), so the
  theorems
  hold for every such function.
* Names are lists of components; a component is a TLV type and a byte string.  A text passed to `Name::append` is read
  as a
  URI (ndn-cxx: conversion to `Name`), so `%C1` in it is the octet 0xC1.  Face URIs are opaque strings with a linear
  order, in canonical form.
* Signature validation, packet transport, the sync protocols (PSync/SVS/ChronoSync), NFD, and logging are external:
  modelled as arbitrary events and replies.

## 3. What is modelled and what is not

| Code | Model | Left out |
|---|---|---|
| src/route/nexthop.hpp, nexthop-list.hpp | `Model/NexthopList` | rounding of route costs (see `Round`) |
| src/route/name-map.{hpp,cpp} | `Model/NameMap` | |
| src/route/routing-calculator-link-state.cpp | `Model/LinkState` | logging |
| src/route/routing-calculator-hyperbolic.cpp | `Model/Hyperbolic` | the values of the two formulas (parameters) |
| src/route/routing-table.{hpp,cpp}, routing-table-entry | `Model/RoutingTable`, `Model/Core` (scheduling, signals) | |
| src/route/name-prefix-table*.{hpp,cpp}, routing-table-pool-entry.hpp | `Model/Npt` | |
| src/route/fib.{hpp,cpp}, fib-entry.hpp | `Model/Fib` | signing of commands; NFD's answers are arbitrary |
| src/lsdb.{hpp,cpp}, src/lsa/*: `update`; src/sequencing-manager; src/communication/sync-logic-handler.cpp | `Model/Lsdb`, `Model/PrefixMap` | validation of fetched data (see `Schema`, `Outsider`), segment fetching (see `Segments`), sync protocol; `m_lsaStorage` is searched as if every interest had CanBePrefix; the incoming face of LSA interests (see `Directed`) |
| src/sequencing-manager.cpp: the text of the state file, the temporary file and the rename | `Model/SeqFile` | loss of data the kernel has not flushed (there is no fsync); rename is atomic |
| src/communication/sync-protocol-adapter.cpp, sync-logic-handler.cpp: nodes and names | `Model/Sync` | the sync libraries (a table of nodes and numbers); the face a report came from |
| src/hello-protocol.{hpp,cpp}; src/nlsr.cpp: face events, face dataset, certificate strategies | `Model/Nbr` | validation (its outcome is an event) |
| src/adjacent.*, src/adjacency-list.* | `Model/Adjacency` | |
| src/name-prefix-list.* | `Model/Npl`, `Model/PrefixMap` | |
| src/update/*.cpp | `Model/Cmd` | validation of command interests, texts of replies |
| src/utility/boost-info-editor.cpp, property trees | `Model/Info` | escapes inside quoted words; trusted: a file written by `write_info` reads back as the tree written |
| src/conf-file-processor.cpp, src/conf-parameter.* | `Model/Conf`, `Model/Num`, `Model/Dbl` | the `security` section, face URI resolution, files and directories (their outcomes are the environment's); rounding of decimal fractions |
| wire formats: src/lsa/*, src/adjacent.cpp, src/name-prefix-list.cpp, src/route/*: `wireEncode`, `wireDecode` | `Model/Tlv`, `Model/LsaWire`, `Model/WireCache` | what texts stand for times and URIs (octet strings; the library's conversions are parameters) |
| names: src/utility/name-helper.hpp, src/conf-parameter.hpp, name texts | `Model/Names`, `Model/Uri` | spellings like `seg=` for typed components |
| src/statistics.*, src/stats-collector.* | `Model/Stats` | printing |
| src/conf-file-processor.cpp:633-674 (security section) | `Model/Security` | what the rules mean to `ValidatorConfig`; reading the files |
| src/conf-parameter.cpp:121-167, src/main.cpp:82-85 | `Model/Start` | private keys, key chain errors, the dummy key chain |
| src/nlsr.cpp:93-95, 152-163, src/update/prefix-update-processor.cpp:52-98, src/update/nfd-rib-command-processor.cpp, src/update/prefix-update-commands.{hpp,cpp} | `Model/Access` | reading parameters, waiting for certificates, the dispatcher's own replies beyond their codes |
| src/lsdb.cpp:492-516 (validated fetching), src/publisher/dataset-interest-handler.cpp:57-80, as used between routers and strangers | `Model/Outsider` | cryptography (signatures are symbolic), segments of one LSA (one packet), the libraries for sync |
| src/lsdb.cpp:278-296, 487-523 (segments) | `Model/Segments` | ndn-cxx's segment fetcher is modelled from its documentation and source: congestion window, retransmission and timeouts are left out (which packets come, and in what order, is arbitrary) |
| tools/nlsrc.cpp:431-478, `operator<<` of src/lsa/*, src/route/nexthop.cpp, src/route/nexthop-list.hpp, src/route/routing-table-entry.cpp, src/route/routing-table.cpp | `Model/Print` | words for component types (numbers are printed); the clock is read once; `printf` and Boost.Chrono are modelled from their documentation |
| src/main.cpp:24-96, src/conf-file-processor.cpp:147-185, 326-391 (files and directories) | `Model/Boot` | `getopt` is modelled from its documentation; permissions beyond whether a file can be created in a directory; what the other sections do to the disk (nothing); texts of messages |
| src/lsdb.cpp:87-142, 459-551 (`incomingFaceId`), src/communication/sync-protocol-adapter.cpp:133-168 | `Model/Directed` | what NFD does with `NextHopFaceIdTag` |
| src/route/routing-calculator-link-state.cpp:264-309, src/route/name-prefix-table.cpp:121-131, src/route/nexthop.hpp:77-89: arithmetic on doubles | `Model/Round` | overflow beyond 2^1024; the values of the hyperbolic formulas |
| src/nlsr.cpp:93-95, 153-163 with the interest filters of src/lsdb.cpp:61-71, src/hello-protocol.cpp:43-63, src/security/certificate-store.cpp:95-139, src/publisher/dataset-interest-handler.cpp:32-55 | `Model/Daemon` | what the sync library does with its interests, refused registrations (Model/Register), the content of datasets (Model/Nlsrc) |
| (NFD, external) RIB to next hops: ROUTE_FLAG_CHILD_INHERIT, ROUTE_FLAG_CAPTURE, best-route | Model/Nfd.lean | documented behaviour: own routes of the longest prefix that has routes, and over other faces the routes inherited from shorter ones; of routes over one face that of the longest prefix counts. Routes of applications on the router and the order of routes of different origins are left out |
| src/lsa/*.cpp, src/adjacent.cpp, src/name-prefix-list.cpp, src/route/nexthop.cpp, src/route/routing-table-entry.cpp, src/route/routing-table.cpp (`wireDecode` on an object in use) | Model/DecodeInto.lean | a name that ndn-cxx cannot decode is taken to stay as it was |
| src/nlsr.cpp:152-177 and the registrations of src/lsdb.cpp:61-71, src/hello-protocol.cpp:45-63, src/security/certificate-store.cpp:95-188 | `Model/Register` | registrations of the sync library; several filters of one name come into force together |
| nlsr.conf:132-318 (trust schema) | `Model/Schema` | signatures, validity periods, the length limit of chains; ndn-cxx's pattern matching and validator are modelled from their documentation |
| src/security/certificate-store.cpp | `Model/CertStore` | validation; the validator's cache is an arbitrary function |
| src/publisher/dataset-interest-handler.cpp, tools/nlsrc.cpp | `Model/Nlsrc`, `Model/NlsrcMain` | signing, segments (what the segment fetcher makes of them is an event) |
| src/nlsr.cpp: LSDB, routing table and name prefix table connected | `Model/Core` | |
| src/nlsr.{hpp,cpp}: all parts of a router connected | `Model/Router` | calls between parts during a step take effect at its end (route and strategy commands of one step may be sent in another order) |
| a network of routers (not code of the repository) | `Model/Net` | each router runs `Model/Router`; sync may report any number a router has published (to the router itself only its last one), LSA Data comes from some other router that has sent it; a router may be stopped at any time (after any of the things its LSDB does in an event or a start) and started with its state file; counters below 2^63, whole link costs, distinct router names |

Not modelled at all: logging (`writeLog`, log lines, and the `operator<<` used by them only), the text syntax of
configuration files beyond what
`Model/Info` says, tools other than nlsrc, tests, memory allocation failure.

## 4. Properties, models and proofs

| Id | Model | Proof |
|---|---|---|
| C01, C02 | `NexthopList` as sorted list, `add`/`remove` as in nexthop-list.hpp | induction over operations; invariant: sorted and one per URI; lookup = running minimum |
| C03 | `NameMap` as list of names | induction; index = position |
| C04 | `makeAdjMatrix` loops over a function matrix | loop invariants of the row-major correction pass |
| C05, C06, C08, C09 | Dijkstra with explicit queue, sort, parent array; `Option` for out-of-range | classical invariant: explored prefix has final distances; specification = least cost over walks (`Spec/Graph`) |
| C07 | `simulateOneNeighbor` and Dijkstra per link | reduction to C05 on the modified matrix; walks in the modified graph |
| C10 | as C04/C05 with LSA list permuted | both sides equal the order-free walk specification |
| C11 | hyperbolic loop with the distance function as parameter | membership characterisation of folds |
| C12 | angle checks with NaN | what the checks enforce; the rest refuted |
| C13 | routing table as list of entries | induction |
| C14 | flags and pending timers of `Core` | invariants over runs; "never lost" refuted |
| C15 | element-sequence encoding | round trip if every dry destination is in the main table; refuted otherwise |
| C16–C19 | pool, entries, weak references as object ids; UB as outcome | one invariant over runs of `Core` |
| C20, C21 | same model | refutation; partial theorems over the history of a router or prefix |
| C22–C26, C65–C67 | FIB entries, command stream, NFD's routes as a fold of commands | history induction; retry groups; refutations |
| C27–C32, C35–C38 | LSDB state machine with timers and signal log | invariants over runs; refutations |
| C33, C34, C57, C58 | name formats, segment cache | direct; malformed names by witness |
| C39, C40 | sessions with a crash between any two outputs | invariant "announced is at most what is on disk" |
| C41–C44, C59–C61, C68–C71 | neighbour state machine (hello, faces, strategies) | invariants with ledgers of interests sent and lost; two routers for C69 |
| C45–C47 | adjacency list | induction; witnesses for fractional costs and partial knowledge |
| C48 | sorted map | refinement to name → (set of sources, cost) |
| C49–C51 | command processor with LSDB, saved configuration as lines and tree | refinement to the history of commands; edits of the file and the restart that follows |
| C52, C53, C72–C74 | loading a configuration tree | induction over sections; witnesses |
| C54–C56 | byte-level TLV codec | structural induction |
| C62, C77 | certificate map, chain walk with fuel | the walk ends iff no name is visited twice (pigeonhole); invariants over runs |
| C63, C78 | `dispatch` over argument lists, `std::stoi` | exact grammar of command lines; composition with the command processor |
| C64, C75, C76 | counters driven by the neighbour and LSDB machines | induction from the end of the run |
| C79, C80 | data sets, cached blocks | blocks one after the other are read one after the other; cache invariant |
| C81 | all routers with the same Adjacency LSAs and tables computed from them | distance to the destination strictly decreases along first next hops (positive costs); zero costs refuted by a seven router network |
| C82 | `Router`: the neighbour, LSDB, table and FIB machines connected as in src/nlsr.cpp | each part runs a reachable run of its own model; the last command for a prefix and its FIB entry agree; composition of C16, C17, C02 and C22; hyperbolic order refuted |
| C83 | `World`: a `Router` and NFD's routes; NFD carries out every command and drops the routes on a face that is gone | invariant over runs: no route without a listed neighbour on that face; all of them until a listed neighbour gets a new face, and again after a refresh; the face that comes back refuted by witness |
| C84 | `Router` | invariant over runs: the own LSA's number is at most the counter, its entries are configured neighbours, and without a pending build they are the active ones; an LSA in the router's name from elsewhere refuted by witness |
| C85 | `Net` (any number of `Router`s, with sync, delivery, stops at any time (also in the middle of an event or of a start) and restarts) | invariant over runs: a number stands for one content at its origin across restarts, and every stored LSA is a copy of one its origin sent; prefix costs, stale reports of own numbers, dry-run restarts and fractional link costs refuted by witness |
| C86 | `Net` | in a settled state of any run the links each router computes with are those both ends have as ACTIVE (C84, C85); each hop is to a router that is nearer (as C81), so packets arrive; nothing pending does not imply settled: a lasting loop by witness |
| C87 | `Lsdb` | cases of `processUpdate`; invariant: the number of a request is at most the highest known; each step keeps a request or gives it up for a named reason, lifted to runs; the highest number is never forgotten, so a router that lost its numbers is not asked: by witness |
| C88 | `Npt`, `Core` | invariant over all runs: flags of the entries, of the calls made, and no capture flag taken back without clearing the prefix; a new entry ignores the flag asked for: by witness |
| C89 | `Net` | in a settled state of any run all routers know the same advertisers (C85); the cheapest face in the FIB (C82) leads to a router that is nearer to an advertiser by what the link costs (C86), so every choice of cheapest faces ends at a nearest one; NFD's own choice among several faces refuted: a lasting loop by witness after a link cost is raised |
| C90 | `Nbr` | invariant of silent runs: while the neighbour is up, a timer, a pending hello or a nacked one is due early enough for the remaining retries; timers are due within the interval; stays up for ever by invariants from three witnesses: late reply, failed registration, data that fails validation |
| C91 | `Sync`: adapter and handler over a library table (external), fed with the LSDB's log | invariant: table = last announced number per type; announced types are registered (invariant over runs); names round trip; stale own reports refuted |
| C92 | The network of C85 and its runs; the requests of C87; `Told`: at some reachable state sync reported the number to the running router, and since then nothing went wrong there (`Kindly`). | Invariants over runs: the highest number a router knows of a name was announced by its origin; the LSA is asked for, or it or a newer one is stored. With C85 (nothing is ahead of its origin) what is stored is the LSA announced. Corollaries by C86 and C89. A router that loses its last link announces nothing: refuted with a run of three routers. |
| C93 | `NetCmd`: the network of C85 with the command processor's list of prefixes per router; only commands and starts change it. | Invariant over runs: the list is sorted and plain, the LSDB's copy mirrors it, and the own Name LSA lists it; membership in the list follows the history of commands (C50's recursion). Forwarding by C89. |
| C94 | `World`: the whole router and the RIB that NFD makes of its commands. `Prompt`: NFD accepts registrations and answers while the neighbour has the face, replies are validated while their sender has one. | Invariant over runs (`Greets`): no command of any component touches these routes except the registrations themselves; the name prefix table has no entry for names no other router mentioned (`Within`). Late answers, late replies and foreign advertisements refuted with runs. |
| C95 | The same runs; the registrations waiting in the FIB and the hello timers. | Invariant (`Looks`): a registration of the name waits or a timer exists; a timer is only taken to be set again. One-step theorems for the answer and the timer. Refused registrations and double timers refuted. |
| C96 | `SeqFile`: the characters written and read (`operator<<`, `operator>>` on words and numbers), the two files, the write as single steps. | Round trip and cuts by induction on the digits; the history with text refines the history with numbers of C39. A full disk and damaged files refuted with runs. |
| C97 | `NlsrcMain`: `getopt` with and without permutation, `main`, the fetch steps, answers with the files whose rules they pass. | A relation says how a command line is to be read; `getopt` computes it, both ways, by induction on the words. Verification by induction on the fetch steps. Answers to updates, abort on a bad name and cut data sets refuted. |
| C98 | `Security`: the section's loop, the files as an environment, the state of `ConfParameter` it sets. | Acceptance characterised exactly, in both directions; publication by induction on the files. Entries ignored after the validator (the documented example) and the abort on a missing file refuted. |
| C99 | `Schema`: name patterns with rows, groups and backtracking, the five rules as data (checked against the text of nlsr.conf), first matching filter decides. | A match is a split of the name; each pattern characterised with its unique groups; each kind of data then as an equivalence. A neighbour's rise by way of the invariant of C42. LSA contents that are not compared with the name, and data without a version, refuted. |
| C100 | `Schema.Vouched`: chains of certificates. | Induction on the chain: the rules carry "above the router, or an operator of its site" from a certificate to its signer. The documented chain is built in the model for all names. |
| C101 | `Schema`: the rules for commands. | Equivalence for commands; induction on the chain for the anchor. Remote commands refuted for all keys. |
| C102 | `Start`: key chain as identities and a default one, `initializeKey`, what each kind of data is signed with; the models of hello, LSDB, certificate store and trust schema. | Composition of C69, C33, C77, C99 and C100 over the key a start makes. Data sets by an equivalence (accepted iff the router's identity is the default one), and refuted for other key chains. |
| C103 | `Access`: the dispatcher's two prefixes, the four commands with their authorizations and formats, in front of `Cmd`; the rules of `Schema` for the validator. | Induction on the interests with C101 for the signer; the only place a command is handled at is computed for all router names. Refuted for the RIB commands: any unsigned interest works, for all prefixes and states. |
| C104 | `Outsider`: the routers of `Net`, with sync, interests and commands left open to anybody, symbolic signatures, and the validator of `Schema` in front of every fetched LSA; data sets are signed too and may be read as LSAs. | Invariant over all events: what a router ever signs in its own name is plain, what it stores in another's agrees with something that one signed. No bound on numbers. Refuted for anyone with any certificate below the anchor (a data set of theirs is read as an LSA), and for LSAs kept away: one forged report of the highest number silences a router for good. |
| C105 | `Segments`: segments of an encoding, their names, `FinalBlockId`, and the segment fetcher over the packets that come; the store of 100 segments and the answers are those of `Lsdb`, restarts those of `Net`. | All packets of a router with one type and number carry one LSA (invariant of `Net`), so a fetch that ends has its encoding, whatever came. Answers: the segments stay behind at most so many newer ones, by induction on the operations. Refuted for LSAs of more than 101 segments (no fetch ever ends) and for many fetches at once (witness with 51). |
| C106 | `Lsdb` (`m_lsaStorage`, least name first) and the fetcher of `Segments`. | Case analysis of every operation for what leaves the store; the answer to each interest computed for all stores. Refuted in part: a version left incomplete by a failed fetch is handed out first and the rest of it never; LSAs whose successor's number was skipped stay. |
| C107 | `Conf` on the tree of the file, with the readers of numbers and names. | Induction over sections, neighbours and lines; the reader of decimals against digits and a power of ten. Refuted in part: unreadable angles cut the list short, repeated neighbours and unknown sections are dropped, unreadable link costs become 10, negative prefix costs wrap. |
| C108 | The hyperbolic calculator and table of every router of a network; `HConverged`. | From C11 and C02; delivery by descent on the distance in thousandths. Refuted in part: greedy forwarding loops where no neighbour is closer, and routers in the same direction have no distance. |
| C109 | `Net` with hyperbolic routing on. | Contents of LSAs from `NInv`, fetching from C92, the tables from C108. Refuted in part: four settled daemons with a loop. |
| C110 | `Model/Print` on top of `Model/NlsrcMain` | the text is a list of lines, each of a kind that its beginning gives away; lines are taken apart at characters that cannot occur in names and numbers, the whole at lines of certain kinds; `%g` is shown to be six correctly rounded digits and read back with the reader of configuration numbers |
| C111 | `Model/Boot`: `main` from the arguments to the event loop, over a disk of files and directories; sections as in `Model/Conf` and `Model/Security`. | Argument lists are read by an inductive relation that is shown to be what `getopt` makes of them; the sections by simulation of `Model/Conf`; the disk by following the two writes. Refuted in part: words that are no options are ignored, a missing certificate file ends in an uncaught exception, and a refused file has already replaced the saved copy. |
| C112 | `Model/Directed`: fetching with the face the report came over. | Simulation of `Model/Lsdb` (C87 and C32 carry over), and induction over runs that accounts for every interest sent. |
| C113 | `Round`: sums and products of costs rounded to doubles (nearest, ties to even, subnormals) | rounding is monotone and exact up to 2^53; the rounded computation equals the exact one by induction over its loops; sums of prefix costs bounded; refuted for fractions and huge prefix costs |
| C114 | Model/Daemon (with Access, Cmd, CertStore, Router) | Prefix comparison of all filters by cases; the filters of certificates by an invariant over runs; read-only by induction over the interests, using that all parts see the same neighbours; the effect of commands as a refinement of `CmdState.step`; two refutations for names that overlap with fixed prefixes |
| C115 | Model/Daemon (with Access, Cmd, CertStore, Router) | every event of the daemon acts on the list of prefixes, the LSDB, the file and the replies as a sequence of operations of `CmdState` (Lemmas/DaemonRun, by cases over all parts); then the invariants of C49 and C33 apply to runs of the daemon; certificates by commuting the store's operations with answers and C77; two refutations (an unreadable greeting; names that overlap with a fixed prefix) |
| C116 | Daemon: `Fatal`, four kinds of event, each described by names and certificates; `Lsdb.BadLsa`, `Carries`, `Ordered`, `Ends` | each part of the daemon ends by its own kind of event and no other (`interest_ends`, `hello_ends`, `cmd_undef`, `publish_ends`, `step_alive`); an interest goes to one part; induction over histories |
| C117 | Model/Nfd.lean: NFD's next hops of a name from the routes and flags of its prefixes; Props/Nest.lean: `Sends` (best-route: cheapest face, not back to where the packet came from), on the networks of C89 | distance to the nearest advertiser of the longest prefix decreases, if every face of a shorter prefix is one of the longest too (`_longest`), with three conditions that give this: only one prefix advertised, every advertiser of a shorter one advertises the longest, neighbours reach the longest without coming back; refuted otherwise by a network of five routers where packets go round |
| C118 | World (routes NFD got from one router) and Model/Nfd.lean together; `Decides`: NLSR's routes of a prefix decide about a packet, with arbitrary routes for all shorter ones; Lemmas/Greet.lean: routes of a neighbour's name are over its face only, routes of the LSA and sync prefix over neighbours' faces only | capture at the longest prefix with routes (`C118_capture`, induction on the name's length); invariant over histories of the world (`Greets`, fields `alone` and `near`); refuted when a router advertises a name below a neighbour's |
| C119 | Model/DecodeInto.lean: `wireDecode` member by member on an object with a cached encoding, with the state it leaves when it throws | case analysis along the code against the decoders of C01-C05 (`head_spec`, `base_spec`), induction over the next hops and entries (`hops_spec`, `entries_spec`); refuted for the dry-run table, for the members that are not encoded and for refused blocks |
| C120 | Core (LSDB, routing table and name prefix table with their timers); `Quiet`: no fetch brings an LSA of the router | every stored LSA of it has a timer due by a fixed time (`Due`), kept by every step that brings none (`kept_or_new`, from the changes of C30 and C80); the tables follow by C16; routes by C06, C07 and C14 when a calculation runs; refuted: expiry of another router's LSA schedules none |
| C121 | Model/Register.lean: the daemon of C114 with its registrations, NFD answers in any order; Model/Nfd for where interests go | invariant: accepted and waiting registrations are a permutation of the prefixes in use (`AskedAll`); all filters are then in force; longest prefix match and inheritance by induction over the prefixes of the name (`hop_longest`, `hop_inherits`); refuted: routes for longer names take hello interests away, and a refusal long after the start ends the daemon |
| C122 | Model/LsaWire (decoders of C54-C56), Spec/Grammar.lean: the formats of the headers as relations between bytes and values, without decoders | equivalence for each decoder, by `parse_iff` (induction over the elements), `loopOf_iff`, `foldl_insertAdj`, `foldl_insertPrefix`; refuted: further elements inside Lsa, Adjacency, PrefixInfo and NextHop are accepted and lost, and no angles are accepted |
| C123 | Model/Conf (C52, C53, C72, C73, C107), Spec/ConfOk.lean: the sections in terms of the texts, names and numbers in them | acceptance of each section is independent of what was read before; equivalence by case analysis along each function, induction over neighbours, prefixes and sections |
| C124 | Model/Nbr (hellos, timers, validation, face events, as C90 and C95) | a measure of what is under way (`Rising`: scheduled hello, waiting interest, reply being validated) kept by every step while the neighbour answers; with punctual timers it ends within one interval and one timeout |
| C125 | Model/Router, Model/Lsdb (build timer, refresh), Model/Adjacency (`isAdjLsaBuildable`) | refuted: while no neighbour is ACTIVE and one has not missed hello-retries hellos, no step changes the links of the own Adjacency LSA (induction over the run), and rounds of builds put off last as long as one likes (`Stuck.rounds`); partial: a build that comes due otherwise is made, by the invariant `Own` of C84 |

## 5. Where the code does not have a property

Each is proved: the theorem named exhibits a concrete state or run of the model. The text is the theorem's comment.

**C101** Under the shipped rules only operators of the site change a router's prefixes
* `C101_violated_remote`: C101 fails for a router asked from afar: `nlsrc -R <router> advertise` sends a command that
  no key makes pass.

**C102** What a router set up as documented signs is accepted by the others
* `C102_violated_dataset`: A router set up as documented, on an account whose default identity is another one, is
  accepted by the other routers; its data sets are not, so `nlsrc -R` does not show them.
* `C102_violated_no_default`: On an account without a default identity the daemon makes its own one the default, and
  its data sets are not accepted either, from any start on.

**C103** Only an operator changes the prefixes a router advertises
* `C103_violated_anyone`: C103 fails for the RIB commands: NLSR takes `rib/register` under its own router's name as
  well as under `/localhost`, and asks nobody. Whoever can send an interest to the router, unsigned and whatever the
  security configuration is, makes it advertise any prefix: a new Name LSA with it goes out to the network. The
  comment in src/update/prefix-update-commands.hpp:26-27 takes the commands for secure "because they are received on
  the localhost prefix".
* `C103_violated_withdrawn`: C103 fails in the other direction too: anyone makes the router stop advertising any
  prefix, those of its configuration file included.

**C104** Outsiders cannot put words into a router's mouth
* `C104_violated_silenced`: C104 says nothing about LSAs that do not come: one report by anybody, of the highest
  number there is, and the router never again asks for that router's LSAs of the type under the numbers they have, nor
  takes those it has already asked for. The rules for data say nothing about sync packets.
* `C104_violated_certificate`: C104 needs it that nobody else has a certificate: one for somebody at the site who runs
  no router is enough to make r1 store an LSA in r3's name that r3 never made. Bob reports a name that looks like that
  of an LSA and like that of a data set of his; his answer, signed with his own key, passes the rules as a data set,
  and is read as an LSA.

**C105** An LSA of any size arrives whole
* `C105_violated_large`: A large LSA never arrives: when it takes more than 101 segments, no packets of the router,
  from any of its lives, in any order and number, make a fetch of it succeed. Putting the segments into the store of a
  hundred pushes the first ones out at once; the interest for one of them is then taken as a new one and answered
  under a longer name, which is not the name the fetcher waits for (src/lsdb.cpp:222-234, 278-296).
* `C105_violated_pushed_out`: Once the segments of a version have been pushed out of the store, the interest for one
  of them is not answered with Data of that name: what the router sends, if anything, has a longer name.
* `C105_violated_crowd`: Many fetches of the same LSA get in each other's way: a router whose Name LSA takes two
  segments is asked for it 51 times, by 51 others say, each getting the first segment under a version of its own. The
  first of them then asks for the second segment, which is no longer stored; the answer is the right segment, but
  under the name of the interest with another version and segment number behind, and the fetcher does not take it.

**C106** LSAs of others are handed on whole, and no old ones
* `C106_violated_leftover`: What is left of a fetch that was given up stands in the way: if the least name kept is of
  a version that is not complete, whoever asks for the LSA is given that one, and the interest for a missing segment
  of it gets no answer, although the router may have the LSA complete under another version and in its LSDB
  (src/lsdb.cpp:262-266, 499-510).
* `C106_violated_old`: Old LSAs are still handed out: when a number is skipped, because two changes come close
  together, the segments of the LSA before are not taken out when the new one is installed, and an interest for the
  old one is answered (src/lsdb.cpp:513).

**C107** A configuration file means what it says
* `C107_violated_angles`: C107 fails: of `angle 1.45;2.5` only the first is used, so the router has coordinates in
  another space than the others, and they compute no distance to it (C12).
* `C107_violated_neighbor`: C107 fails: a second `neighbor` with the same name, say over another face, is dropped
  without a message, and so is one whose name is `/`.
* `C107_violated_cost`: C107 fails: a link cost that is no number is not refused, 10 is used.
* `C107_violated_negative`: C107 fails: a negative cost of a prefix is not refused, it becomes the largest there is.
* `C107_violated_section`: C107 fails: a section whose name is misspelt only draws a message; the router starts
  without anything it says, here without neighbours.

**C108** Hyperbolic routing hands packets to the closest neighbour, and they arrive
* `C108_violated_loop`: In a network that has converged with hyperbolic routing, packets can go back and forth for
  ever between two routers although the destination can be reached: u is linked to v and w, and w to d, but v is
  closer to d than w is. So u sends packets for d to v, and v, whose only neighbour is u, sends them back. This holds
  whatever the formulas of lines 201-258 yield, as long as v is closer than w by a thousandth or more; for the
  coordinates given (radius 5, angles 2, 1.25, 3 and 1) it is 5.84 against 9.65. The code has no measure against it: a
  router offers each neighbour's distance whether or not it is smaller than its own
  (src/route/routing-calculator-hyperbolic.cpp:84-124).
* `C108_violated_direction`: Two routers that lie in the same direction but at different radii have different
  coordinates, and yet no distance: an angle of zero between them counts as an error
  (src/route/routing-calculator-hyperbolic.cpp:250-254, although the message there asks only that no two nodes have
  the exact same coordinates). So in a row of three routers a - b - c with b and c in the same direction, a never has
  an entry for c, whatever the formula for the distance.

**C109** A network of daemons with hyperbolic routing forwards by the configured coordinates
* `C109_violated_loop`: What `C108_violated_loop` says of tables happens to four daemons with hyperbolic routing that
  have found their neighbours, learned the coordinates of all routers and computed their routes: u sends packets for d
  to v, and v sends them back to u, although u is linked to w and w to d
  (src/route/routing-calculator-hyperbolic.cpp:84-124).

**C110** What nlsrc prints tells what the daemon has
* `C110_violated_digits`: C110 fails for costs from a million on: links of cost 1000000 and 1000001 look the same.
* `C110_violated_notYet`: C110: "Routing Table is not calculated yet" is not printed for any daemon's answer.
* `C110_violated_forged`: C110 fails for URIs with line ends in them, which a router can put into its LSA if the codec
  lets them pass: one link is printed as two.

**C111** How the daemon starts from its command line and what it leaves behind if it does not
* `C111_violated_words`: C111 fails for words that are not options: `nlsr /etc/new.conf` does not complain, it starts
  with `nlsr.conf`.
* `C111_violated_aborted`: C111 fails for a certificate that is not there: the exception is not caught, so instead of
  a message and status 2 the daemon is aborted.
* `C111_violated_saved`: C111 fails for a file that is refused late: the daemon ends with status 2, but by then the
  file in the state directory, with the prefixes saved in the last run, has been overwritten.

**C113** Rounding does not change routes
* `C113_violated_up`: A prefix cost that is not whole can be rounded up to the next whole number: on a route of cost
  10 the prefix cost `0.99999999999999989` (the double below 1) makes 11 instead of 10.
* `C113_violated_large`: With a prefix cost of 2^54, which commands and the wire format allow, faces with route costs
  1 and 2 get the same cost, and the one with the higher cost comes first if its URI does.

**C114** Every interest goes to the part of the daemon that can answer it, and interests other than commands change
nothing
* `C114_violated_local`: C114 fails for the names of some routers: the dispatcher refuses its second prefix if it
  overlaps with the first one, and this is only logged (src/nlsr.cpp:94-95, 156-162). If the router's name starts with
  `/localhost/nlsr`, no command and no dataset under `/localhost/nlsr` reaches the daemon: `nlsrc` gets no answer.
* `C114_violated_parts`: C114 fails for the names of some routers: a router called `/localhop/localhop/nlsr/LSA` in
  the network `/localhop` gives every greeting also to the LSDB.

**C115** A running daemon answers the interests it should, with what its configuration and the commands it accepted say
* `C115_violated_silenced`: C115 fails: one interest `/<router>/nlsr/INFO/<x>` from anybody, where `x` carries no
  name, ends every daemon in every state, and nothing that is asked afterwards is answered.
  src/hello-protocol.cpp:127, src/main.cpp:85-91.
* `C115_violated_local`: C115 fails for a router whose name starts with `/localhost/nlsr`: it runs and answers no
  command and no data set under `/localhost/nlsr`.

**C116** What ends a running daemon
* `C116_violated_anyone`: C116 fails: whatever its state, there is an interest without any signature that ends the
  daemon, for good.

**C117** Packets for a name go to the router that advertises its longest prefix
* `C117_violated_loop`: C117 fails. NLSR registers the routes of advertised prefixes with the flag
  ROUTE_FLAG_CHILD_INHERIT (src/route/name-prefix-table.cpp:82, 96, 175), so that NFD uses routes of shorter prefixes
  beside those of the longest prefix of a name, for the faces that the longest one has no route over. Here x
  advertises /a/b and y advertises /a, in a network where all routers know all LSAs, have computed their routes and
  told NFD. u is linked to x, at cost 10, and sends packets for /a/b to v, because y is only 5 away that way; v has
  routes for /a/b itself and does not look at those for /a, so it sends the packets to w (not back to u where they
  came from), and w, in the same way, sends them to u. From there they go to v again. They never come to x, which is
  u's neighbour, nor to y: NFD drops them as loops.

**C118** What NLSR itself sends goes to the neighbours it is meant for
* `C118_violated_longer`: C118 fails when another router advertises a name below a neighbour's: NLSR registers it as
  any other prefix (src/route/fib.cpp:93-163 asks only whether the name is that of a neighbour), and NFD prefers the
  longer prefix. Here r3 advertises r2's name with `nlsr` behind it: the hellos to r2 are sent to r3 and not to r2, so
  that the adjacency of r1 and r2 is lost although the link works.

**C119** Decoding into an object in use replaces what it held
* `C119_violated_dry`: C119 fails for the tables: `RoutingTableStatus::wireDecode` empties the routing table and not
  the dry-run table (src/route/routing-table.cpp:285), so that an object that is decoded into twice has the dry-run
  entries of both data sets.
* `C119_violated_kept`: C119 fails for neighbours and next hops: `Adjacent::wireDecode` (src/adjacent.cpp:117-157)
  leaves status, timeouts and face id as they are, `NextHop::wireDecode` (src/route/nexthop.cpp:63-99) the hyperbolic
  flag. A neighbour that was up on face 300 is up on face 300 after another neighbour's block has been decoded into
  it; and a hyperbolic next hop stays one, so that its cost is compared and printed as a distance.
* `C119_violated_refused`: C119 fails when the block is refused: `m_wire` is set before anything is tested
  (src/lsa/name-lsa.cpp:85, and so in all classes) and the base class is decoded in place. After the exception the LSA
  has the origin and number of the refused block with the old names, and is encoded to the refused block, which no
  router accepts.

**C12** Malformed hyperbolic coordinates give no route
* `C12_violated_range`: C12 is violated: the range of the leading angles is not enforced. An angle of 100 (or -7) is
  accepted.
* `C12_violated_last`: C12 is violated: the last angle of the second vector is never looked at, so the test is not
  symmetric: the same pair is refused in one order and used in the other.
* `C12_violated_nan`: C12 is violated: NaN angles are used.
* `C12_violated_fault`: C12 is violated: two coordinate LSAs without angles (which the LSA decoder accepts) make the
  computation read before the start of an empty vector.

**C120** A router that falls silent is forgotten, and not before
* `C120_violated_stale_route`: The code: src/route/routing-table.cpp:69-76 does nothing when an LSA of another router
  is removed ("Don;t do anything on removal, wait for HelloProtocol to confirm and then react"). The LSAs of r2 have
  expired, nothing is scheduled, and the routing table still has its route to r2; for a router that is not a neighbour
  no hello will ever confirm anything.

**C121** The prefixes the daemon answers under are registered with NFD, or the daemon ends
* `C121_violated_taken`: C121 is violated: "when NFD has accepted all that the daemon asked for, it sends the daemon
  its hello interests". The registration of the hello prefix captures and is not inherited
  (src/hello-protocol.cpp:62), so a route for a longer name takes the interests away, and NLSR puts in a route for
  every name that another router advertises: if r3 advertises /net/site/r1/nlsr/INFO/⟨r2⟩, the hello interests that r2
  sends to r1 are forwarded by r1's NFD to r3 and the daemon of r1 never sees them.
* `C121_violated_later`: C121 is violated: "a daemon that NFD has given all it asked for at the start goes on". For
  each certificate that comes with the LSA of another router a further prefix is asked for
  (src/security/certificate-store.cpp:177), at any later time, and if NFD refuses or does not answer in time the
  exception of `registrationFailed` (src/security/certificate-store.cpp:164) ends the daemon. In the witness all eight
  prefixes of the start are accepted, the daemon runs, a segment of r2 is validated, and the one registration that
  follows from it is refused.

**C122** The decoders accept the documented formats and no others
* `C122_violated_more`: C122 is violated: "a block that is accepted has the elements of the documented format and no
  others". Inside Lsa, Adjacency, PrefixInfo and NextHop nobody looks at what follows the last element that is needed
  (src/lsa/lsa.cpp:93-98, src/adjacent.cpp:150-157), so elements of any type, critical ones too, are accepted there
  and lost, while in the place of a neighbour or a name an unknown element makes the whole LSA unreadable. In the
  witness the Lsa has an element of type 201 after the expiration time.
* `C122_violated_angles`: C122 is violated: "a Coordinate LSA has at least one angle" (src/lsa/coordinate-lsa.hpp:40).
  The loop over the angles (src/lsa/coordinate-lsa.cpp:110-119) may run no times.

**C125** A link that goes down is withdrawn from the router's own Adjacency LSA in bounded time
* `C125_violated_kept`: C125, what happens to a link while nobody is ACTIVE and some neighbour has not missed enough
  hellos: whatever the router does and however long this lasts, its own Adjacency LSA keeps exactly the links it had,
  those to dead neighbours included.
* `C125_violated_for_ever`: C125 is violated for ever: the only ACTIVE neighbour r2 has lost its face, and the other
  configured neighbour r3 never had one. The build that should withdraw the link to r2 is due, is put off because r3,
  which is sent no hellos, has not missed three of them, is due again, and so on: for every time there is a run that
  lasts longer, in which every such build is made when it is due and at the end of which the router still claims its
  link to r2.

**C14** Routing recalculation is coalesced and never lost
* `C14_violated_lost`: C14 does not hold: a calculation that falls due while an Adjacency LSA build is scheduled is
  dropped. If the build then changes nothing, no calculation and no build is pending although the table lacks a router
  that is reachable according to the LSDB.
* `C14_violated_expiry`: C14 does not hold: when another router's Adjacency LSA expires nothing is scheduled, and the
  route to that router stays.

**C15** Routing-table dataset round-trips
* `C15_violated_dry_only`: C15 is false for dry-run tables. A destination known only to the dry-run table is decoded
  as a link-state route, for every codec.

**C17** Every prefix entry's next hops are the merge of its advertisers' current routes
* `C17_violated_hyperbolic`: C17 does not hold exactly in hyperbolic mode: the table keeps the old cost 3 although the
  current route costs 3.0001.

**C20** A router's own prefix stays while any of its LSAs remains
* `C20_violated`: C20 does not hold: one of r2's two LSAs expires and the entry for r2's own prefix goes, although the
  other LSA is still stored.

**C21** A prefix's registered cost is route cost plus the advertiser's prefix cost
* `C21_violated_two_advertisers`: C21 does not hold with several advertisers: /p is registered by r2's face for 30,
  the cost of the router heard last, while r2 advertises it with 5 over a route of cost 10.
* `C21_violated_withdrawal`: And when one of two advertisers withdraws, the other's prefix cost is lost: /p is
  registered for 10 although its only advertiser r3 asks for 20 on top.
* `C21_violated_hyperbolic`: In hyperbolic mode the route costs sent to the FIB are no longer marked hyperbolic, so a
  route of cost 3.5 is registered with 3 instead of 3500, the same as one of cost 3.25.

**C25** FIB refresh re-registers the current cost
* `C25_violated_raised`: C25 does not hold when a cost goes up: after updates with cost 10 and then 20, the refresh
  registers 10.

**C27** The LSDB holds one LSA per router and type, and only replaces it by a newer one
* `C27_violated_wrap`: The exception happens: a peer reports 2^64−2 for this router's Name LSA, the router publishes
  2^64−1, and the next refresh stores and publishes 0.

**C28** After accepting a newer LSA the stored content equals the received content
* `C28_violated_name_cost`: C28 fails for costs: the newer Name LSA changes the cost of /b from 1 to 9, the stored LSA
  takes its number but keeps the cost 1.
* `C28_violated_link_cost`: C28 fails for fractional link costs: 10 stored, 9.5 received, 10 kept.
* `C28_violated_coordinates`: C28 fails for coordinates closer than 2^-52.

**C30** LSAs of other routers live exactly until their latest expiration
* `C30_violated_stale_timer`: C30 fails for own LSAs: the timer 3, which belongs to the removed version (object 2),
  fires and refreshes the later version (object 4), whose own timer 5 is not due for another 1000 s.

**C31** Own LSAs are refreshed, not expired, with strictly increasing sequence numbers
* `C31_violated_wrap`: C31 fails at the largest number: the refresh of an own Name LSA numbered 2^64-1 publishes 0.

**C33** LSA interests are answered only with the exact requested version
* `C33_violated_segment`: C33 fails for segments: an interest for a later segment that is no longer kept gets Data
  under a name that extends the interest's name by a second version and segment, which does not satisfy an interest
  for that exact name.

**C34** Malformed LSA interests cannot stop the router
* `C34_violated_daemon`: C34 fails for the whole daemon: one interest under the name of the router's own LSAs, from
  anybody, that does not end in a number ends it in any state. Nothing that comes afterwards has any effect: no hello
  is answered, no LSA sent, no route registered. src/lsdb.cpp:247, src/main.cpp:85-91.
* `C34_violated`: C34 fails: every interest for one of this router's LSAs whose last component is not a
  non-negative-integer encoding stops the daemon, in every state.

**C35** A router adopts a higher own sequence number seen in the network
* `C35_violated_dry_run`: C35 fails in dry-run mode, where both adjacency and coordinate LSAs are used: the reports
  are ignored.
* `C35_violated_max`: C35 fails at the largest number: the router announces 0.

**C36** Own sequence numbers never go backwards within a run
* `C36_violated_stale_report`: C36 fails for the ADJACENCY LSA: once the own LSA has been removed because no neighbour
  is active, a sync report of an old number makes the router announce a number again.

**C38** An LSA that has already expired is not given a new life
* `C38_violated`: C38 fails: an LSA that expired 7000 s ago is installed and still stored 1800 s later although every
  due timer has fired.

**C39** Sequence numbers are never reused across crashes
* `C39_violated_dry_run`: C39 fails in dry-run mode: a restart resets the adjacency number to 0 and the coordinate
  number to 10.
* `C39_violated_stale_report`: C39 fails for adjacency LSAs if a peer that missed the last numbers reports an old one
  after the restart.

**C44** Hello interests are answered only for configured neighbours
* `C44_violated_longer`: C44 is violated: an interest that is not of the form `/<router>/nlsr/INFO/<x>` is answered,
  when INFO comes again later in the name.

**C46** Adjacency content equality is reflexive and symmetric
* `C46_not_reflexive`: C46 fails in general: a neighbour configured with link-cost 9.5 makes an adjacency list differ
  from itself.
* `C46_not_symmetric`: ... and the comparison is not symmetric: 10 against 9.5.

**C47** Adjacency LSA is built only when every neighbour's state is known
* `C47_violated`: C47 fails: with one active neighbour the list is buildable although the other neighbour has neither
  answered nor timed out.

**C50** Re-advertising with a new cost takes effect or is refused
* `C50_violated_saved`: C50 fails: /p is advertised with cost 7. Advertising it with cost 20 and the save flag is
  answered 205 (success) and saved, but the router goes on advertising cost 7.

**C51** Saved prefixes can be deleted and survive restart
* `C51_violated_delete`: C51 fails for deleting: /a saved with cost 10 cannot be deleted. The command is answered 500,
  the prefix stays in the file, and the router advertises it again after a restart.
* `C51_violated_period`: C51 fails for names with a period: /a.b saved with cost 10 is answered 205, but it is written
  as an entry `.b` inside an entry `/a` without cost; the configuration is refused at the next start.
* `C51_violated_cost`: C51 fails for large costs: 2^53 + 1 is saved as 2^53.
* `C51_violated_undefined`: The cost 2^64 - 1, which a command may carry, makes the daemon convert 2^64 to `uint64_t`:
  no defined result.

**C52** Accepted configurations have all parameters in range
* `C52_violated_fetch_tries`: C52 fails for face-dataset-fetch-tries: without a `neighbors` section the daemon starts
  with a value nothing ever set (src/conf-parameter.cpp:38-60 has no initialiser for it).

**C53** Hyperbolic mode is never enabled without coordinates
* `C53_violated_spelling`: C53 fails: `state ON` (which is understood as on) without any coordinates is accepted.
* `C53_violated_angle`: C53 fails: an angle that is no number gives an empty list of angles, which is accepted.

**C57** Sync update names identify the originating router
* `C57_violated`: C57 is false for some names. A network name containing `nlsr`, or one containing `LSA`, makes the
  derived origin differ from the router prefix.

**C58** LSA interest and data names identify the originating router
* `C58_violated`: C58 is false for a network name with an `LSA` component.

**C60** Neighbour face ids follow face events
* `C60_violated_shared`: C60 is violated: of two neighbours behind the same face, only the first goes down when the
  face is destroyed; the other stays up, with the id of a face that is gone.

**C62** Certificate store serves exactly what was inserted, and chain publishing terminates
* `C62_violated_loop`: C62 fails: for two certificates signed with each other's key, publishing does not end, however
  many nested calls there are.
* `C62_violated_self`: C62 fails: nor does it end for a self-signed certificate that gives its own name, not its
  key's, as its signer, in a cache that finds it by either name.
* `C62_violated_locator`: C62 fails: a certificate without a key locator name stops the daemon.
* `C62_violated_key_name`: C62 fails: a key whose name looks like a certificate's is not found, though its certificate
  was inserted.

**C63** nlsrc parses costs faithfully
* `C63_violated_negative`: C63 fails for negative numbers: they are accepted, and -1 becomes the cost 2^64 - 1.
  (`main` hands them over if options must come first, or behind `--`, see C97.)
* `C63_violated_rest`: C63 fails for texts with something behind a number: `5abc`, `1.9` and `1e6` are taken for 5, 1
  and 1.

**C64** Packet statistics count every packet
* `C64_violated_overflow`: C64 fails for long runs: the 2^31st packet takes the `int` counter past its largest value.

**C66** A withdrawn route stays withdrawn
* `C66_violated_retry`: C66 does not hold when a registration fails: the retry is sent although the entry is gone, and
  NFD ends up with a route the FIB does not record.

**C67** Refresh keeps the flags of the latest update
* `C67_violated_flags`: C67 does not hold when the flags change: after updates with flags 2 and then 1, the refresh
  registers 2.

**C68** Malformed hello interests do not stop the daemon
* `C68_violated`: C68 is violated: whoever can send an interest can end the daemon, in any state.

**C70** Operator certificates get the best-route strategy
* `C70_violated_plain_name`: C70 fails for a router whose configured name has no component `%C1.Router`, which nothing
  requires: the strategy is set for names under the router, `/net/s/r1/%C1.Operator`, and not for those under the
  site.

**C71** One hello per neighbour and interval
* `C71_violated`: C71 is violated: after its face went down and came up again, a neighbour is sent two hello interests
  a second apart, each by a timer that is due, with a hello interval of sixty.

**C72** Configured numbers are used as written
* `C72_violated_unit`: C72 fails: `lsa-refresh-time 60m` is not refused, the default of 1800 s is used.
* `C72_violated_negative`: C72 fails: `router-dead-interval -5` is accepted as 136 years.

**C73** Router, LSA and sync prefixes come from the configured names
* `C73_violated_twice`: C73 fails: with two `general` sections, even equal ones, the network appears twice in the LSA
  prefix, so the router answers none of its neighbours.
* `C73_violated_none`: C73 fails: a file without a `general` section is accepted; the router has the empty name and no
  LSA prefix.

**C74** Configured neighbours are well formed
* `C74_violated_special_cost`: C74 fails: a neighbour with `link-cost -12345`, the value that stands for "no link", is
  accepted.

**C76** LSA statistics are exact
* `C76_violated_not_sent`: C76 fails: an interest is counted as sent although a higher number is wanted by then and
  nothing is sent.
* `C76_violated_kept`: C76 fails: an interest answered with a kept segment is not counted as received, and the data is
  not counted as sent.
* `C76_violated_no_segment`: C76 fails: data is counted as sent for a segment number that does not exist, and none is
  sent.
* `C76_violated_stored`: C76 fails: another router's data is sent and not counted.

**C77** A configured certificate is served for as long as the daemon runs
* `C77_violated_elsewhere`: C77 fails for configured certificates of any other entity, as the network's: the store
  holds it and does not listen for interests for it, so none is answered.
* `C77_violated_replaced`: C77 fails: on the way up another router's chain, the configured certificate is replaced by
  whatever the validator's cache of unverified certificates has for the key, and is not served any more.

**C78** nlsrc's exit status tells whether the update took effect
* `C78_violated_nack`: C78 fails for an answer of content type Nack: an error is printed, and the status is 0.
* `C78_violated_applied`: C78 fails for a save that does not work: the status is 1 although the prefix is now
  advertised and announced.
* `C78_violated_saved`: C78 fails for what is saved already: the second time the status is 1, although prefix and file
  are as asked for.

**C80** Cached encodings are never stale
* `C80_violated_coordinates`: C80 fails for the object: a coordinate LSA that is encoded, then updated, then encoded
  again gives the old block.
* `C80_violated_link_cost`: C80 fails for a neighbour: encoded, given another link cost, and encoded again, it gives
  the block with the old cost (`setLinkCost`, src/adjacent.cpp:66-77, is the only setter of an encoded field that does
  not reset the cache).
* `C80_violated_next_hop`: C80 fails for a next hop: no setter resets its cache (src/route/nexthop.hpp:71-101).
* `C80_violated_entry`: C80 fails for a table entry: a next hop put into the list it hands out
  (src/route/routing-table-entry.hpp:64-68) is not in the next block.
* `C80_violated_name_list`: C80 fails for a name LSA whose list of names is changed through `getNpl()`
  (src/lsa/name-lsa.hpp:66-70): the next block does not have the name.

**C81** A converged network forwards without loops
* `C81_violated_zero`: With a link that costs nothing, which a configuration may ask for
  (src/conf-file-processor.cpp:498), two routers that have converged can each be the other's next hop: packets from a
  to d go back and forth between a and b for ever, although a, b and d are connected. Ties are broken by the order in
  which the exchange sort of src/route/routing-calculator-link-state.cpp:171-181 leaves the queue, which is not
  stable.

**C82** Each prefix is forwarded over the best faces
* `C82_violated_hyperbolic`: C82 fails in hyperbolic mode: with one face per prefix allowed, the prefix /p is given
  the face towards r2, at distance 3.9 (with the stand-in for the distance function used here), and not the face
  towards r3, at distance 3.2. `adjustNexthopCosts` (src/route/name-prefix-table.cpp:121-131) makes the hops it hands
  to the FIB with the constructor for link-state hops, so they are ordered by cost rounded down (8 and 8) and then by
  URI.

**C83** NFD has the routes the FIB lists, while faces come and go
* `C83_violated_new_face`: C83 fails when a neighbour loses its face and gets another before the routes have changed.
  NFD drops the routes on the old face; NLSR registers only the neighbour's name and the LSA prefix on the new one
  (src/nlsr.cpp:228-258, 306-319). The rebuilt adjacency LSA is the same as before, so nothing is calculated and the
  FIB is not updated. The neighbour is up, the FIB lists it for the prefix, NFD has no route over it, and nothing is
  scheduled that would bring it back before the refresh of the prefix, which is up to twice lsa-refresh-time away.

**C84** A router claims exactly the links it has
* `C84_violated_forged`: C84 fails if another router answers the request for its Adjacency LSA with one that names
  this router as its origin: the origin inside the LSA is not compared with the name that was asked for
  (src/lsdb.cpp:581-612), so the LSA replaces this router's own. r1 then claims links to r3, which is INACTIVE, and to
  r4, which is no neighbour of r1's at all, and no longer claims the link to r2; no build is pending that would mend
  this.

**C85** All routers say the same about each other
* `C85_violated_prefix_cost`: C85 fails for the costs of prefixes: `NameLsa::update` (src/lsa/name-lsa.cpp:129-162)
  compares names only, so a router that already has an LSA keeps the costs it has. r1 raises the cost of /p from 5 to
  7; r2, which knew the prefix, and r3, which did not, then both have number 12 of r1's Name LSA, one with cost 5, the
  other with cost 7.
* `C85_violated_own_report`: C85 fails if sync reports an old number to the router that announced it: after a restart,
  and until it has built its Adjacency LSA, the router has none to compare the number with and goes on from the
  reported one (src/lsdb.cpp:94-117). r2 uses number 2 again, for an LSA without links, while r1 holds number 2 with a
  link, and will not ask for it again.
* `C85_violated_dry_run`: C85 fails for routers in dry-run mode that are restarted: there the number of the Adjacency
  LSA starts again at 0 (src/sequencing-manager.cpp:84-91), so r2 announces number 1 once more, with one link instead
  of two. r1 keeps the two links, and a report of r2's number does not make it ask.
* `C85_violated_fraction`: C85 fails for link costs that are not whole numbers: `Adjacent::operator==` compares the
  cost that is stored, as it is, with the cost received, rounded up (src/adjacent.cpp:159-165,
  src/adjacent.hpp:97-101). r2 first announces a cost slightly above 0, which counts as 1, and then a cost of 0. r1,
  which knew the first, takes the new number and keeps the old cost; r3 has the new one. Both are number 12, and the
  routes are computed with costs 1 and 0.

**C86** A settled network forwards along shortest paths of the links that are up
* `C86_violated_loop`: C86 fails if only the absence of pending work is assumed: packets can go round for ever
  although every router knows all links and no calculation, build or fetch is pending anywhere. A calculation that
  falls due while an Adjacency LSA build is scheduled is dropped (src/route/routing-table.cpp:118-121) and the build
  asks for no new one if the links are as before (src/lsdb.cpp:322-339). Of r1, r2 and r3, the link between r1 and r3
  replaces the one between r2 and r3, and the face from r1 to r2 goes and comes back in the 15 seconds before r1
  computes its routes. From then on r2 sends packets for r3 to r1, and r1, which is r3's neighbour, sends them back to
  r2.

**C87** A newer LSA that is reported is asked for until it comes
* `C87_violated_restart`: The highest number reported is never forgotten: when a router lost its sequence number file
  and counts from the start, the others no longer ask for its LSAs, although they hold none of them any more. Here the
  LSA with the number 5 has expired, sync reports the number 2, and nothing is asked for.

**C88** Routes to routers capture, routes to advertised prefixes do not
* `C88_violated`: A name that is new in the table gets the child-inherit flag whatever flag was asked for (line 175),
  and keeps it as long as it has next hops. So if routes are calculated before the second LSA of a router comes, the
  routes to the router never get the capture flag that they are meant to have: here r2's Adjacency LSA came first,
  then the calculation, then its Name LSA.

**C89** Packets for an advertised prefix reach a nearest router that advertises it
* `C89_violated_loop`: C89 fails for NFD when there is more than one face for a prefix: the routes by which NFD
  chooses can point at each other although every router knows all links and has computed its routes from them. An FIB
  entry keeps the lowest cost a face ever had (src/route/nexthop-list.hpp:56-70, src/route/fib.cpp:73, 126), and the
  refresh of the entry tells NFD that cost again (src/route/fib.cpp:324-330). The operator of r2 raises the cost of
  the link to r3 from 1 to 20. r1, whose link to r3 costs 5, computes that r3 is 5 away directly and 21 away by r2,
  but with the next refresh it tells NFD that /p is 2 away by r2. From then on the cheapest route for /p is over r2 at
  r1 and over r1 at r2. (NFD's best-route strategy does not send a packet back to where it came from: with it the
  packets of r1 take the way over r2, at cost 21 where 5 is enough.)

**C90** A neighbour that falls silent is marked down in bounded time
* `C90_violated_late`: C90 is violated: a reply that is validated after the neighbour's face went down marks it
  ACTIVE; no hello is sent to it then, and it stays ACTIVE as long as its face does not come up again, whatever else
  happens and however long it takes.
* `C90_violated_unregistered`: C90 is violated: a neighbour whose prefix could not be registered, but whose own hello
  was answered with one that it replied to, is ACTIVE with a face, and is never asked for a hello again: it stays
  ACTIVE for ever, until its face or its prefix is heard of.
* `C90_violated_invalid`: C90 is violated: data that fails validation counts neither as a reply nor as a loss. A
  neighbour whose data always fails validation (or anybody who sends data for its hello interests) is ACTIVE for as
  long as one likes, though not one reply was validated in that time, in an event loop that does not lag.

**C91** What a router announces is what the sync library tells the others
* `C91_violated_lower`: C91 fails for the adjacency LSA when an old number of it is reported back: the router had
  announced 1, 2 and 3 and removed its LSA when it had no neighbour left; the report of 1 makes it announce 2, which a
  library that only takes higher numbers drops, so the others are never told of the new LSA.

**C92** When nothing is outstanding, every router has every LSA
* `C92_violated_links_gone`: C92 fails for a router that loses its last link: it removes its Adjacency LSA but
  announces nothing (src/lsdb.cpp:373-380; the others are to find out when the LSA expires), so the others, which were
  told of all that was announced and have nothing to ask, keep what it said before, and route packets over the link.
  Here r3 no longer has r2 as an active neighbour; r2, which still hears r3, and r1 keep their routes to r3.

**C94** A neighbour that has a face has the routes NLSR needs for itself
* `C94_violated_late_reply`: C94 fails when a neighbour's face goes while its hello reply is being validated. The
  neighbour is set active although it has no face, and the registration of the sync prefix is dropped because there is
  none (src/hello-protocol.cpp: 233-250, src/nlsr.cpp:60-68, src/route/fib.cpp:165-197). When the face comes back the
  name and the LSA prefix are registered, but not the sync prefix: that is done only when an inactive neighbour
  becomes active. The neighbour is up, further hellos are answered, and sync interests are not sent to it.
* `C94_violated_late_answer`: C94 fails when the answer to a registration arrives after the face is destroyed.
  `onRegistrationSuccess` sets the neighbour's face id to that of the answer (src/route/fib.cpp:199-212), a face that
  no longer exists and has no routes. From then on the periodic face data set, which lists the neighbour's new face,
  is not looked at for this neighbour, because it has a face id (src/nlsr.cpp:281-292).
* `C94_violated_advertised`: C94 fails when another router advertises the LSA prefix (or the sync prefix). NLSR then
  treats it as any other prefix: it replaces its own route by one that expires, and when the other router withdraws
  it, it unregisters the route (src/route/fib.cpp:50-68, 93-163). LSA interests are no longer forwarded to this
  neighbour.

**C95** A neighbour that has a face is greeted in every hello interval
* `C95_violated_refused`: C95 fails when NFD refuses the registration of the neighbour's name four times
  (src/route/fib.cpp:214-232). The neighbour has its face, the registration is given up, and since the greeting starts
  only when it succeeds no hello is scheduled; the next face data set changes nothing because the neighbour has a face
  id.
* `C95_violated_twice`: C95 fails in the other direction: there can be more than one scheduled hello for a neighbour.
  Each successful registration of its name starts a sequence of hellos of its own, and nothing ends the old one when
  the face is lost (src/nlsr.cpp:55-58, 187-226, src/hello-protocol.cpp:87-108). After a face has come back the
  neighbour gets two hellos in each interval, after the next time three.

**C96** The state file survives crashes: what a start reads is what the last complete write recorded
* `C96_violated_disk_full`: On a full disk C96 fails: the errors of the stream are not looked at, so a cut file takes
  the place of the good one, and after the next start the router announces numbers it has used long ago.
* `C96_violated_damaged`: A damaged file is not noticed either: any text is taken for numbers.

**C97** nlsrc asks the router it is told to and believes only what passes the rules
* `C97_violated_unverified`: C97 fails for prefix updates: the answer to an update sent to another router is believed
  without looking at its signature, `-c` or not. An answer that passes no rules makes nlsrc report success.
* `C97_violated_abort`: C97 fails for a router that is no name: the exception is thrown before `main` catches any, and
  nlsrc is aborted instead of ending with an error message and status 1.
* `C97_violated_cut`: C97 fails for a data set that breaks off: what came before is shown as if it were all, and the
  exit status is 0.

**C98** The certificates named in the security section are published and trusted, and a wrong section is refused
* `C98_violated_documented`: C98 fails for the section that docs/SECURITY-CONFIG.rst:56-67 gives as an example:
  certificates named right after the validator are silently ignored, none is published and none is trusted.
* `C98_violated_ignored`: C98 fails for anything else in that place, even nonsense: the update validator behind it is
  not loaded, and nobody is told.
* `C98_violated_missing`: C98 fails for a file that does not exist: the daemon is aborted by an exception where a file
  without a certificate is refused with a message.

**C99** Under the shipped rules, data from another router counts only if that router signed it
* `C99_violated_origin`: C99 fails in what is done with the data: the LSA inside is not compared with the name it was
  fetched under. A router whose own LSA is fetched, with its own key, can put an LSA of another router into it, and it
  is installed as that router's.
* `C99_violated_unversioned`: C99 fails for LSA data without a version, which is under the name asked for as well: the
  key of whoever has the router's name without its last component passes, and the key of the router itself does not.

## 6. Axioms of the property theorems

* Classical.choice, Quot.sound, propext (485): C01_cheapest_per_face, C01_order_independent, C02_cheapest_first,
  C02_cheapest_first_exact, C02_remove, C03_known_routers, C03_numbering, C04_agreed_cost, C05_shortest_paths,
  C06_next_hop_on_shortest_path, C07_best_offer_is_shortest, C07_multipath_offers, C08_no_fault, C09_costs_bounded,
  C09_only_agreed_links, C100_dataset, C100_genuine, C100_hello, C100_lsa, C100_not_router, C100_operator,
  C101_command, C101_site, C101_violated_remote, C102_dataset_partial, C102_hello, C102_lsa, C102_served,
  C102_violated_dataset, C102_violated_no_default, C102_without, C103_changes_partial, C103_forbidden, C103_obeyed,
  C103_refused, C103_violated_anyone, C103_violated_withdrawn, C104_authentic_partial, C104_members, C104_own,
  C104_violated_certificate, C104_violated_silenced, C105_fetched_partial, C105_kept, C105_octets,
  C105_violated_crowd, C105_violated_large, C105_violated_pushed_out, C106_current, C106_handed_on_partial, C106_kept,
  C106_violated_leftover, C106_violated_old, C107_angles_partial, C107_coordinates_partial, C107_costs_partial,
  C107_neighbors_partial, C107_prefix_costs, C107_prefixes, C107_protocol, C107_radius_partial, C107_state,
  C107_violated_angles, C107_violated_cost, C107_violated_negative, C107_violated_neighbor, C107_violated_section,
  C108_closest, C108_greedy_partial, C108_violated_direction, C108_violated_loop, C109_closest, C109_coordinates,
  C109_delivered_partial, C109_known, C109_violated_loop, C10_order_independent, C110_bits, C110_lsdb, C110_precise,
  C110_routing, C110_screens, C110_sign, C110_special, C110_status, C110_ties, C110_time, C110_told, C110_unit,
  C110_violated_digits, C110_violated_forged, C110_violated_notYet, C110_whole, C111_copy, C111_files, C111_options,
  C111_runs, C111_status_partial, C111_violated_aborted, C111_violated_saved, C111_violated_words, C112_again,
  C112_first, C112_sent, C113_error, C113_hyperbolic, C113_link_state, C113_registered_partial, C113_violated_large,
  C113_violated_up, C113_whole, C114_command_partial, C114_dispatcher_partial, C114_hello_partial, C114_keys_partial,
  C114_lsa_partial, C114_one_part_partial, C114_readonly, C114_violated_local, C114_violated_parts,
  C115_certificate_partial, C115_dataset_partial, C115_ended, C115_hello_partial, C115_lsa_partial,
  C115_names_partial, C115_prefixes_partial, C115_refused_partial, C115_violated_local, C115_violated_silenced,
  C116_exact_partial, C116_histories_partial, C116_violated_anyone, C117_around_partial, C117_both_partial,
  C117_longest_partial, C117_not_astray, C117_single_partial, C117_violated_loop, C118_capture, C118_hello_partial,
  C118_lsa_partial, C118_sync_partial, C118_violated_longer, C119_tables_partial, C119_violated_dry,
  C119_violated_kept, C11_no_fault, C11_no_route_to_self, C11_offers, C120_forgotten, C120_hyperbolic_partial,
  C120_kept, C120_routes_partial, C120_violated_stale_route, C121_asked, C121_delivered_partial, C121_early,
  C121_ends, C121_refused, C121_served, C121_violated_later, C121_violated_taken, C122_dataset_partial,
  C122_name_partial, C123_accepted, C124_announced, C124_reply, C124_router_stays, C124_router_up, C124_stays,
  C124_up, C125_answering_partial, C125_bounded_partial, C125_made_partial, C125_violated_for_ever,
  C125_violated_kept, C12_checked_partial, C12_violated_fault, C12_violated_last, C12_violated_nan,
  C12_violated_range, C13_one_entry_per_destination, C14_at_most_one, C14_change_pending, C14_runs_hyperbolic,
  C14_runs_partial, C14_stays_pending, C14_violated_expiry, C14_violated_lost, C15_link_state_exact,
  C15_round_trip_partial, C15_violated_dry_only, C16_advertisers, C16_no_idle_entry, C16_not_own,
  C16_own_prefix_partial, C17_adjusted_partial, C17_link_state_partial, C17_violated_hyperbolic, C18_no_fault,
  C19_pool_exact, C20_history_partial, C20_no_removal_partial, C20_violated, C21_one_advertiser_partial,
  C21_one_advertiser_price_partial, C21_same_cost_partial, C21_some_cost_partial, C21_violated_hyperbolic,
  C21_violated_two_advertisers, C21_violated_withdrawal, C21_zero_cost_partial, C21_zero_cost_price_partial,
  C22_update, C23_routes, C24_neighbors, C25_refresh_partial, C25_violated_raised, C26_at_most_four, C26_retries,
  C26_same_request, C26_success_stops, C26_success_stops_strategy, C27_newer_only_partial, C27_old_ignored,
  C27_one_per_key, C27_violated_wrap, C28_adjacencies_partial, C28_coordinates_partial, C28_names_partial,
  C28_violated_coordinates, C28_violated_link_cost, C28_violated_name_cost, C29_signals_complete, C30_expires,
  C30_first_timer, C30_one_timer, C30_other_step, C30_violated_stale_timer, C31_own_stays, C31_refresh_partial,
  C31_violated_wrap, C32_highest_monotone, C32_interests_ordered, C32_outdated_data, C32_retry, C32_retry_fires,
  C33_exact_version, C33_own_interest, C33_stored_prefix, C33_violated_segment, C34_fault_exact_partial, C34_violated,
  C34_violated_daemon, C35_adopt_partial, C35_not_newer, C35_violated_dry_run, C35_violated_max,
  C36_adjacency_partial, C36_name_coordinate_partial, C36_violated_stale_report, C37_builds_active, C37_built_lists,
  C37_coalesced, C37_none_active, C37_pending, C37_put_off, C38_lifetime_partial, C38_violated, C39_adjacency_partial,
  C39_no_reuse_partial, C39_violated_dry_run, C39_violated_stale_report, C40_disk_first, C41_down, C41_inactive,
  C42_sender, C42_up, C42_valid, C43_rebuild, C44_answered_partial, C46_equality_partial, C46_not_reflexive,
  C46_not_symmetric, C48_advertised, C48_report, C48_sorted, C49_code, C49_idempotent, C49_lsa, C49_names,
  C49_no_duplicates, C49_publish, C50_new_cost_partial, C50_refused, C50_violated_saved, C51_deleted_partial,
  C51_restart_deleted_partial, C51_restart_partial, C51_save_delete_partial, C51_saved_partial, C51_violated_cost,
  C51_violated_delete, C51_violated_period, C51_violated_undefined, C52_fetch_tries, C52_in_range_partial,
  C52_violated_fetch_tries, C53_coordinates_partial, C53_violated_angle, C53_violated_spelling, C55_round_trip,
  C56_accepted_reencodes, C56_accepted_wellformed, C56_injective, C57_distinct_partial, C57_sync_origin_partial,
  C58_injective_partial, C58_interest_names_partial, C59_fetch, C59_next, C60_created, C60_dataset,
  C60_destroyed_first, C60_destroyed_partial, C60_ids, C60_no_status, C61_once, C62_find_cert, C62_find_key_partial,
  C62_interest_run, C62_publish_ends_iff, C62_published, C63_announced, C63_cost_partial, C63_lines, C63_listed,
  C63_violated_negative, C63_violated_rest, C65_no_lapse, C66_violated_retry, C66_withdrawn_partial,
  C67_flags_partial, C67_violated_flags, C68_malformed_partial, C68_violated, C69_round_trip, C70_operator_partial,
  C71_loops_partial, C72_as_written_partial, C72_default_partial, C72_every_text_partial, C72_large_partial,
  C72_minus_partial, C72_violated_negative, C72_violated_unit, C73_prefixes_partial, C73_violated_none,
  C73_violated_twice, C74_cost_checked, C74_neighbors_partial, C74_violated_special_cost, C75_hello,
  C76_own_reply_partial, C76_received_data_partial, C76_sent_interests_partial, C76_sums_partial, C76_violated_kept,
  C76_violated_no_segment, C76_violated_not_sent, C76_violated_stored, C77_configured_stays_partial,
  C77_served_partial, C78_daemon_partial, C78_exit, C78_not_sent, C78_refused, C78_violated_applied,
  C78_violated_nack, C78_violated_saved, C80_content, C80_routing_table, C80_violated_entry, C80_violated_next_hop,
  C81_loop_free_partial, C81_violated_zero, C82_best_faces_partial, C82_violated_hyperbolic, C83_best_partial,
  C83_no_lapse, C83_no_stray_partial, C83_refreshed, C83_routes_partial, C83_violated_new_face, C84_as_started,
  C84_configured, C84_links_partial, C84_soon, C84_violated_forged, C85_agree_partial, C85_not_ahead, C85_source,
  C85_violated_dry_run, C85_violated_fraction, C85_violated_own_report, C85_violated_prefix_cost,
  C86_forwarding_partial, C86_violated_loop, C87_asked, C87_installed, C87_kept, C87_not_newer, C87_other_type,
  C87_until, C87_violated_restart, C88_capture_partial, C88_flags, C88_not_downgraded, C88_told, C88_violated,
  C89_delivered_partial, C89_listed, C89_single, C89_violated_loop, C90_down_partial, C90_down_timeouts_partial,
  C90_router_down_partial, C90_violated_late, C90_violated_unregistered, C90_withdrawn_partial,
  C91_end_to_end_partial, C91_offered_partial, C91_told_partial, C91_violated_lower, C92_delivered_partial,
  C92_exchanged, C92_obtained, C92_same, C92_violated_links_gone, C93_delivered_partial, C93_gone, C93_lists,
  C94_routes_partial, C94_up_partial, C94_violated_advertised, C94_violated_late_answer, C94_violated_late_reply,
  C95_answered, C95_scheduled_partial, C95_sent, C95_violated_refused, C95_violated_twice, C96_adjacency_partial,
  C96_crash, C96_cut_keeps, C96_cut_lower, C96_no_reuse_partial, C96_on_disk, C96_round_trip, C96_violated_damaged,
  C96_violated_disk_full, C97_exit, C97_help, C97_negative, C97_options, C97_shows, C97_status, C97_verified,
  C97_violated_abort, C97_violated_cut, C97_violated_unverified, C98_accepted_partial, C98_published, C98_refused,
  C98_violated_documented, C98_violated_ignored, C98_violated_missing, C99_dataset, C99_hello, C99_lsa, C99_only,
  C99_up, C99_violated_origin, C99_violated_unversioned
* Quot.sound (1): C62_violated_locator
* Quot.sound, propext (45): C105_not_segment, C107_names, C114_hello_elsewhere, C119_lsas, C119_refused_partial,
  C119_small_partial, C122_adjacency_partial, C122_coordinate_partial, C122_violated_angles, C122_violated_more,
  C41_losses, C41_nack, C41_timeout, C44_violated_longer, C45_insert, C45_names_distinct, C47_buildable_partial,
  C47_violated, C54_consumes_prefix, C54_format, C54_round_trip, C56_trailing_rejected, C56_wrong_type_rejected,
  C60_violated_shared, C62_history, C62_interest, C62_publish, C62_segment, C62_sent, C64_counts_partial,
  C64_increments, C64_violated_overflow, C69_hello_back, C70_violated_plain_name, C71_violated, C76_fetched_partial,
  C79_last, C79_lsdb, C79_unreadable, C80_lsdb_partial, C80_methods_partial, C80_neighbour_partial, C80_objects,
  C90_violated_invalid, C97_asks
* none (1): C55_types
* propext (14): C102_start, C119_violated_refused, C45_updates_local, C57_violated, C58_violated, C61_which,
  C62_violated_key_name, C62_violated_loop, C62_violated_self, C77_violated_elsewhere, C77_violated_replaced,
  C80_violated_coordinates, C80_violated_link_cost, C80_violated_name_list
