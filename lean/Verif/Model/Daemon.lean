import Verif.Model.Access
import Verif.Model.CertStore
import Verif.Model.NetCmd
/-
The daemon as its peers see it: every interest that arrives is handed to the parts of the daemon that asked for its name.
Interest filters are set by src/lsdb.cpp:61-71, src/hello-protocol.cpp:43-57, src/security/certificate-store.cpp:95-139, 167-180,
the sync library (src/communication/sync-protocol-adapter.cpp:39-80) and the dispatcher (src/nlsr.cpp:93-95, 153-163) for the
commands (Verif.Model.Access) and the datasets (src/publisher/dataset-interest-handler.cpp:32-55).

An interest is handed to every filter whose prefix fits (`ndn::Face`, external).  Prefix registrations with NFD are taken to
succeed.  What the sync library does with its interests is not modelled; what it tells the LSDB are operations of the router.  The
content of datasets is modelled in Verif.Model.Nlsrc; here it is only noted that one was asked for.
-/
namespace Nlsr

/-- The datasets, src/publisher/dataset-interest-handler.cpp:32-35. -/
inductive Dataset | adjacencies | coordinates | names | routingTable
deriving DecidableEq, Repr

namespace Dataset
/-- The relative names, src/publisher/dataset-interest-handler.cpp:32-35. -/
def rel : Dataset → Name
  | .adjacencies => nm ["lsdb", "adjacencies"]
  | .coordinates => nm ["lsdb", "coordinates"]
  | .names => nm ["lsdb", "names"]
  | .routingTable => nm ["routing-table"]

/-- All of them, src/publisher/dataset-interest-handler.cpp:43-54. -/
def all : List Dataset := [.adjacencies, .coordinates, .names, .routingTable]
end Dataset

/-- Who asked for interests, src/nlsr.hpp:160-193. -/
inductive Part
  /-- `Lsdb::processInterest`, src/lsdb.cpp:64-65 -/
  | lsdb
  /-- the sync library, src/communication/sync-protocol-adapter.cpp:47-79 -/
  | sync
  /-- `HelloProtocol::processInterest`, src/hello-protocol.cpp:49-50 -/
  | hello
  /-- a command of the dispatcher, under one of its top prefixes -/
  | command (top : Name) (h : Access.Handler)
  /-- a dataset of the dispatcher, under one of its top prefixes -/
  | dataset (top : Name) (d : Dataset)
  /-- `CertificateStore::onKeyInterest`, src/security/certificate-store.cpp:98-99 -/
  | certs
deriving DecidableEq, Repr

/-- The configuration: that of the router, how ndn-cxx reads parameters and the validator of commands (see `Access.Env`), and how deep
a recursion may get. -/
structure DConf where
  r : RConf
  decode : Name → Comp → Option Access.Params
  valid : Access.Request → Bool
  depth : Nat

namespace DConf
/-- What the dispatcher reads, src/nlsr.cpp:69-83, 94-95. -/
def env (c : DConf) : Access.Env := ⟨c.r.lsdb.router, c.decode, c.valid⟩
end DConf

/-- The daemon: the router, the list of prefixes (`ConfParameter::m_npl`, src/conf-parameter.hpp:537), the file commands are saved to,
and the certificates (src/conf-parameter.hpp:541-545, src/main.cpp:76-84). -/
structure Daemon where
  r : Router
  npl : Npl
  file : Option ConfFile
  certs : CertStore
  /-- replies to commands, by the handlers and by the dispatcher -/
  replies : List Reply := []
  refused : List Nat := []
  /-- datasets sent -/
  sets : List (Name × Dataset) := []
  /-- a conversion without defined result was made -/
  undef : Bool := false

namespace Daemon

/-- The filters that are set at the start and stay, in the order given above. -/
def fixed (c : DConf) : List (Name × Part) :=
  [(c.r.lsdb.names.lsaPrefix, .lsdb), (c.r.syncPrefix, .sync),
   (c.r.lsdb.router ++ [Nbr.nlsrComp, Nbr.infoComp], .hello)] ++
  (Access.tops c.env).flatMap (fun t =>
    Access.handlers.map (fun h => (t ++ h.rel, Part.command t h)) ++ Dataset.all.map (fun d => (t ++ d.rel, Part.dataset t d)))

/-- All filters: those of the certificate store become more (src/security/certificate-store.cpp:177). -/
def filters (c : DConf) (d : Daemon) : List (Name × Part) := fixed c ++ d.certs.filters.map (fun f => (f, Part.certs))

/-- The parts that get an interest with this name (`ndn::Face`, external). -/
def fitting (c : DConf) (d : Daemon) (n : Name) : List Part :=
  ((filters c d).filter (fun f => Name.isPrefixOf f.1 n)).map (·.2)

/-- An interest: name and key (see `Access.Request`), and the version that an answer made for it gets. -/
structure Packet where
  req : Access.Request
  ver : Nat

/-- The daemon has ended: src/main.cpp:85-91. -/
def ended (d : Daemon) : Bool := d.r.ended || d.certs.dead || d.undef

/-- What a command acts on: src/update/command-processor.hpp:89-91, src/update/prefix-update-processor.hpp:96-97. -/
def view (d : Daemon) : CmdState :=
  { npl := d.npl, lsdb := d.r.core.lsdb, file := d.file, replies := d.replies, undef := d.undef }

/-- A command is carried out, src/update/command-processor.cpp:42-130: what `CmdState.step` does to the list of prefixes, the file
and the replies; the Name LSA is built by the router's LSDB if the list has changed (lines 53-56, 98-101), and its listeners hear
of it. -/
def carryOut (c : DConf) (d : Daemon) (x : Cmd) : Daemon :=
  let v := CmdState.step c.r.lsdb d.view (.cmd x)
  let l := Net.listed d.npl x
  let r := Router.step c.r d.r (.core (.lsdb (.setNpl l.2.infos)))
  { d with r := if l.1 then Router.step c.r r (.core (.lsdb .buildName)) else r
           npl := v.npl, file := v.file, replies := v.replies, undef := v.undef }

/-- A handler of the dispatcher gets an interest: as in `Access.handle`. -/
def command (c : DConf) (d : Daemon) (q : Access.Request) (top : Name) (h : Access.Handler) : Daemon :=
  match q.name[(top ++ h.rel).length]? with
  | none => d
  | some p =>
    match c.decode h.rel p with
    | none => d
    | some x =>
      if Access.authorized c.env h q then
        if Access.wellFormed h x then carryOut c d (Access.cmdOf h x)
        else { d with refused := d.refused ++ [400] }
      else { d with refused := d.refused ++ [403] }

/-- A dataset is asked for: `Dispatcher::processStatusDatasetInterest` (external) ignores names that end with a version or a segment
number; src/publisher/dataset-interest-handler.cpp:58-79. -/
def dataset (d : Daemon) (q : Access.Request) (top : Name) (x : Dataset) : Daemon :=
  match Name.fromEnd q.name 1 with
  | none => d
  | some last => if last.isVersion || last.isSegment then d else { d with sets := d.sets ++ [(top, x)] }

/-- One part gets an interest.  Nothing happens once the daemon has ended (src/main.cpp:85-91). -/
def hand (c : DConf) (q : Packet) (d : Daemon) (p : Part) : Daemon :=
  if d.ended then d
  else
    match p with
    | .lsdb => { d with r := Router.step c.r d.r (.core (.lsdb (.interest q.req.name q.ver))) }
    | .sync => d
    | .hello => { d with r := Router.step c.r d.r (.nbr (.interest q.req.name ⟨54, Tlv.encNni q.ver⟩)) }
    | .command top h => command c d q.req top h
    | .dataset top x => dataset d q.req top x
    | .certs =>
      match d.certs.find q.req.name with
      | none => d
      | some x => { d with certs := { d.certs with sent := d.certs.sent ++ [x] } }

/-- An interest arrives. -/
def receive (c : DConf) (d : Daemon) (q : Packet) : Daemon := (fitting c d q.req.name).foldl (hand c q) d

/-- What happens to the daemon (src/nlsr.cpp, src/main.cpp:85-86). -/
inductive Op
  | interest (q : Packet)
  /-- anything else that happens to the router -/
  | router (op : Router.Op)
  /-- a segment of an LSA was validated (see `CertStore.segment`) -/
  | segment (cache : Name → Option Cert) (kl : Option Name)

/-- The operations of the router that interests and commands stand for: they happen in no other way (src/lsdb.cpp:61-71,
src/hello-protocol.cpp:43-57, src/update/command-processor.cpp:53-56, 98-101). -/
def byInterest : Router.Op → Bool
  | .nbr (.interest _ _) => true
  | .core (.lsdb (.interest _ _)) => true
  | op => Net.byCommand op

/-- One event. -/
def step (c : DConf) (d : Daemon) : Op → Daemon
  | .interest q => receive c d q
  | .router op => if d.ended || byInterest op then d else { d with r := Router.step c.r d.r op }
  | .segment cache kl =>
    if d.ended then d
    else
      match CertStore.segment cache c.depth d.certs kl with
      | none => { d with certs := { d.certs with dead := true } }
      | some s => { d with certs := s }

/-- A run of the daemon (src/main.cpp:85-86). -/
def run (c : DConf) (d : Daemon) (ops : List Op) : Daemon := ops.foldl (step c) d

/-- At start: src/nlsr.cpp:37-115, src/conf-file-processor.cpp:605-631, src/main.cpp:76-84. -/
def init (c : DConf) (disk : Option Seqs) (adjs : AdjacencyList) (start : List (Name × Ext Rat)) (sys : Int) (file : Option ConfFile)
    (certs : List Cert) : Daemon :=
  let l := Net.configured start
  { r := Router.init c.r disk adjs l.infos sys, npl := l, file := file, certs := CertStore.init c.r.lsdb.names certs }

end Daemon
end Nlsr
