import Verif.Model.Router
import Verif.Lemmas.NbrInv
/-
A network of routers, each running the daemon modelled in Verif.Model.Router.

Not code of the repository: what lies between the routers.  The sync libraries (PSync, SVS), NFD and the
network only carry what the routers hand to them, so of them only this is assumed: sync reports a number that
some router has published, under the name it was published with, and the Data that answers an LSA interest was
put out by some other router (its signature is checked by code that is not modelled).  Reports and Data may come
late, in any order, many times or not at all; only a report to a router of a number of its own, which makes the
router go on from that number, is assumed to be of the last one it has published (see C39 for what happens
otherwise).  A router may be stopped at any time, also between two things it does in one event or while it starts
(what it was about to do is then not done), and started again with the state file it last wrote.
-/
namespace Nlsr

/-- The sequence numbers written to the state file.  src/sequencing-manager.cpp:42-53. -/
def persisted : Out → Option Seqs
  | .persist s => some s
  | _ => none

/-- The sequence numbers last written to the state file.  src/sequencing-manager.cpp:42-53. -/
def lastPersist (l : List Out) : Option Seqs := (l.filterMap persisted).getLast?

/-- A router of the network, and what its LSDB did before the router was last started.  src/main.cpp:85-91. -/
structure Site where
  r    : Router
  past : List Out := []

/-- All that the router's LSDB ever did.  src/lsdb.cpp. -/
def Site.log (n : Site) : List Out := n.past ++ n.r.core.lsdb.log

/-- What an encoded LSA says.  The status, the face and the timeouts of a neighbour are not encoded:
src/adjacent.cpp:79-101, src/lsa/adj-lsa.cpp:49-86, src/lsa/name-lsa.cpp:38-75, src/lsa/coordinate-lsa.cpp:40-76. -/
def Content.sent : Content → Content
  | .adj l => .adj (l.map (fun a => { name := a.name, uri := a.uri, cost := a.cost }))
  | c => c

/-- What the receiver of an encoded LSA decodes (C55); the expiration time is rounded on the way.
src/lsdb.cpp:553-614. -/
structure Transmits (l l' : Lsa) : Prop where
  origin : l'.origin = l.origin
  seq : l'.seq = l.seq
  content : l'.content.sent = l.content.sent

namespace Net

/-- The network: one router at each place.  src/main.cpp:85-86. -/
abbrev State (ι : Type) := ι → Site

/-- When a router is stopped: between two events; after the first `k` things its LSDB does in an event; or, after it
was stopped before, when its LSDB has done `k` things of the next start.  src/lsdb.cpp, src/main.cpp:85-91. -/
inductive Kill
  | idle
  | event (op : Router.Op) (k : Nat)
  | start (before : Kill) (adjs : AdjacencyList) (npl : List PrefixInfo) (sys : Int) (k : Nat)

/-- What the router has done since the last whole event.  src/lsdb.cpp. -/
def Kill.outs (c : RConf) (n : Site) : Kill → List Out
  | .idle => []
  | .event op k => ((Router.step c n.r op).core.lsdb.log.drop n.r.core.lsdb.log.length).take k
  | .start b adjs npl sys k =>
    b.outs c n ++ (Router.init c (lastPersist (n.log ++ b.outs c n)) adjs npl sys).core.lsdb.log.take k

/-- What happens in the network: something at a router (src/nlsr.cpp), or a router is stopped and started again
(src/main.cpp:85-86). -/
inductive Op (ι : Type)
  | act (i : ι) (op : Router.Op)
  | restart (i : ι) (adjs : AdjacencyList) (npl : List PrefixInfo) (sys : Int) (kill : Kill := .idle)

variable {ι : Type} [DecidableEq ι]

/-- The router at one place has another state. -/
def set (N : State ι) (i : ι) (n : Site) : State ι := fun j => if j = i then n else N j

/-- One event.  src/nlsr.cpp, src/sequencing-manager.cpp:55-95. -/
def step (c : ι → RConf) (N : State ι) : Op ι → State ι
  | .act i op => set N i { N i with r := Router.step (c i) (N i).r op }
  | .restart i adjs npl sys kill =>
    set N i ⟨Router.init (c i) (lastPersist ((N i).log ++ kill.outs (c i) (N i))) adjs npl sys, (N i).log ++ kill.outs (c i) (N i)⟩

/-- Every link cost is a whole number.  The configuration file may give fractions (src/conf-file-processor.cpp:498),
which are compared and rounded in different ways (C46). -/
def Whole (l : AdjacencyList) : Prop := ∀ a ∈ l, ∃ z : Int, a.cost = .fin (z : Rat)

/-- The counters are far from the end of their range.  src/sequencing-manager.hpp:149-151. -/
def Room (q : Seqs) : Prop := q.name < 2 ^ 63 ∧ q.adj < 2 ^ 63 ∧ q.cor < 2 ^ 63

/-- What the libraries and the network may do to a router, see above. -/
def Delivers (c : ι → RConf) (N : State ι) (i : ι) : Router.Op → Prop
  | .core (.lsdb (.sync u k)) =>
    ∃ j t, u = (c j).lsdb.names.lsaUserPrefix t ∧ .publish t k ∈ (N j).log ∧
      (j = i → ∀ k', .publish t k' ∈ (N i).log → k' ≤ k)
  | .core (.lsdb (.fetched _ (some l))) => ∃ j d, j ≠ i ∧ .data d ∈ (N j).log ∧ Transmits d.lsa l
  | _ => True

/-- The event or the start in which the router is stopped is one that may happen. -/
def Kill.Fine (c : ι → RConf) (N : State ι) (i : ι) : Kill → Prop
  | .idle => True
  | .event op _ => Delivers c N i op ∧ Room (Router.step (c i) (N i).r op).core.lsdb.seqs
  | .start b adjs npl sys _ => b.Fine c N i ∧ Nbr.Fresh adjs ∧ Whole adjs ∧
    Room (Router.init (c i) (lastPersist ((N i).log ++ b.outs (c i) (N i))) adjs npl sys).core.lsdb.seqs

/-- What may happen. -/
def Allowed (c : ι → RConf) (N : State ι) : Op ι → Prop
  | .act i op => Delivers c N i op
  | .restart i adjs _ _ kill => Nbr.Fresh adjs ∧ Whole adjs ∧ (c i).lsdb.hyp ≠ .dryRun ∧ kill.Fine c N i

/-- What the operators of the routers see to: no two routers have the same name, and the names of the network
contain no `nlsr` and no `LSA` (see C57). -/
structure Sane (c : ι → RConf) : Prop where
  distinct : ∀ i j, (c i).lsdb.router = (c j).lsdb.router → i = j
  nlsr : ∀ i, Comp.str "nlsr" ∉ (c i).lsdb.names.network
  lsa : ∀ i, Comp.str "LSA" ∉ (c i).lsdb.names.network
  short : ∀ i, (c i).lsdb.names.network.length + (c i).lsdb.names.site.length + (c i).lsdb.names.router.length < 2 ^ 63

/-- States the network can be in. -/
inductive Reachable (c : ι → RConf) : State ι → Prop
  | start (disk : ι → Option Seqs) (adjs : ι → AdjacencyList) (npl : ι → List PrefixInfo) (sys : ι → Int)
      (hf : ∀ i, Nbr.Fresh (adjs i)) (hw : ∀ i, Whole (adjs i))
      (hd : ∀ i, ∀ q ∈ disk i, Room q) (hr : ∀ i, Room (Router.init (c i) (disk i) (adjs i) (npl i) (sys i)).core.lsdb.seqs) :
      Reachable c (fun i => ⟨Router.init (c i) (disk i) (adjs i) (npl i) (sys i), []⟩)
  | step {N : State ι} (h : Reachable c N) (op : Op ι) (ha : Allowed c N op) (hr : ∀ i, Room (step c N op i).r.core.lsdb.seqs) :
      Reachable c (step c N op)

end Net
end Nlsr
