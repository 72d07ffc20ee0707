import Verif.Model.Daemon
import Verif.Model.Nfd
/-
The prefixes that the daemon asks NFD to send it interests for, and NFD's answers.  src/lsdb.cpp:61-71,
src/hello-protocol.cpp:45-63, src/nlsr.cpp:93-95, 152-177, src/security/certificate-store.cpp:95-139, 160-188.

`ndn::Face::setInterestFilter` with callbacks sends a registration command; the filter is in force when NFD has
accepted.  `ndn::Face::registerPrefix` only sends the command, and the filters of the dispatcher are in force at once
(`addTopPrefix` is called with `false`, src/nlsr.cpp:158).  NFD may answer late, in any order, and refuse; no answer in
time is a refusal (ndn-cxx, external).  Simplified: of several filters with the same name, one accepted registration puts
all into force.  The registrations of the sync library are not modelled, its filter counts as in force.
-/
namespace Nlsr

/-- The daemon and its registrations: name and flags. -/
structure RegDaemon where
  d : Daemon
  /-- commands sent and not answered -/
  waiting : List (Name × Nat)
  /-- accepted by NFD -/
  routes : List (Name × Nat) := []
  /-- an error callback has thrown: src/lsdb.cpp:69, src/hello-protocol.cpp:60, src/nlsr.cpp:174,
  src/security/certificate-store.cpp:164 -/
  refusal : Bool := false

namespace RegDaemon

/-- `ROUTE_FLAG_CAPTURE`, src/lsdb.cpp:71, src/hello-protocol.cpp:62, src/security/certificate-store.cpp:102. -/
def capture : Nat := 2

/-- `ROUTE_FLAG_CHILD_INHERIT`, the default of `ndn::Face::registerPrefix` (external), src/nlsr.cpp:168. -/
def inherit : Nat := 1

/-- What is asked for at the start, in the order of construction: src/nlsr.cpp:44-49, 94-95, src/main.cpp:78-80. -/
def atStart (c : DConf) : List (Name × Nat) :=
  [(c.r.lsdb.names.lsaPrefix, capture), (c.r.lsdb.router ++ [Nbr.nlsrComp, Nbr.infoComp], capture),
   (c.r.lsdb.router ++ [Comp.str "nlsr"], inherit), (nm ["localhost", "nlsr"], inherit)] ++
  (CertStore.keyPrefixes c.r.lsdb.names).map (fun f => (f, capture))

/-- src/main.cpp:76-84. -/
def init (c : DConf) (d : Daemon) : RegDaemon := { d := d, waiting := atStart c }

/-- The daemon has ended, src/main.cpp:85-91. -/
def ended (s : RegDaemon) : Bool := s.d.ended || s.refusal

/-- Is the filter in force?  src/lsdb.cpp:64-71, src/hello-protocol.cpp:51-62, src/security/certificate-store.cpp:98-102; those
of the dispatcher always are (src/nlsr.cpp:158). -/
def live (s : RegDaemon) (f : Name × Part) : Bool :=
  match f.2 with
  | .lsdb | .hello | .certs => s.routes.contains (f.1, capture)
  | .sync | .command _ _ | .dataset _ _ => true

/-- The parts that get an interest. -/
def fitting (c : DConf) (s : RegDaemon) (n : Name) : List Part :=
  ((Daemon.filters c s.d).filter (fun f => Name.isPrefixOf f.1 n && s.live f)).map (·.2)

/-- What happens (src/main.cpp:85-86). -/
inductive Op
  | event (op : Daemon.Op)
  /-- NFD answers one of the commands -/
  | answer (i : Nat) (ok : Bool)

/-- An answer comes: src/lsdb.cpp:66-70, src/hello-protocol.cpp:55-61, src/nlsr.cpp:169-175,
src/security/certificate-store.cpp:154-165. -/
def answer (s : RegDaemon) (i : Nat) (ok : Bool) : RegDaemon :=
  match s.waiting[i]? with
  | none => s
  | some r =>
    if ok then { s with waiting := s.waiting.eraseIdx i, routes := s.routes ++ [r] }
    else { s with waiting := s.waiting.eraseIdx i, refusal := true }

/-- One event.  A certificate that is published is asked for too (src/security/certificate-store.cpp:177). -/
def step (c : DConf) (s : RegDaemon) (op : Op) : RegDaemon :=
  if s.ended then s
  else
    match op with
    | .answer i ok => s.answer i ok
    | .event (.interest q) => { s with d := (fitting c s q.req.name).foldl (Daemon.hand c q) s.d }
    | .event op =>
      let d := Daemon.step c s.d op
      { s with d := d, waiting := s.waiting ++ (d.certs.filters.drop s.d.certs.filters.length).map (fun f => (f, capture)) }

/-- A run (src/main.cpp:85-86). -/
def run (c : DConf) (s : RegDaemon) (ops : List Op) : RegDaemon := ops.foldl (step c) s

end RegDaemon
end Nlsr
