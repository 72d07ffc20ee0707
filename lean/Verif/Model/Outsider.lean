import Verif.Model.Net
import Verif.Model.Schema
/-
A network in which anybody may send anything.

As in Verif.Model.Net every router runs the daemon, but nothing is assumed of sync (its packets are not covered by the rules in
nlsr.conf: any name and any number may be reported, as often as one likes), of interests, of commands, or of the answers to
hellos.  Data that answers an LSA interest is looked at as src/lsdb.cpp:492-495 has it done: it counts only if it passes the
shipped rules with its key locator, its key has a chain of certificates to an anchor, and the signatures are made with the
keys in the certificates.  Signatures are symbolic: a packet or a certificate has a signer, and whose the key in a certificate is
is known; nobody can sign with another's key.  Simplified: the segments of one LSA are one packet (they are signed by the
same router under the same name and version in one go, src/lsdb.cpp:276-279).
-/
namespace Nlsr.Net
open Schema (Vouched passes shipped)

/-- Who makes a signature: a router of the network, somebody who runs the network and signs only certificates (root, sites,
operators, see nlsr.conf:132-269), or anybody else. -/
inductive Signer (ι : Type)
  | router (j : ι)
  | authority
  | stranger
deriving DecidableEq

/-- Data, as the one who asked for an LSA sees it: what its content decodes to is an LSA or not (src/lsdb.cpp:591-607). -/
structure Packet (ι : Type) where
  name : Name
  key : Option Name
  signer : Signer ι
  holds : Option Lsa

/-- The anchors (nlsr.conf:266-269), whose the key in a certificate is, and who has signed the certificate. -/
structure Pki (ι : Type) where
  anchors : List Cert
  owner : Cert → Signer ι
  signer : Cert → Signer ι

/-- Each certificate of a chain is signed with the key in the next.  External (`Validator::verifySignature`). -/
def Pki.signed {ι : Type} (p : Pki ι) : List Cert → Prop
  | ct :: ct' :: l => p.signer ct = p.owner ct' ∧ p.signed (ct' :: l)
  | _ => True

/-- Data that the validator accepts, nlsr.conf:134-269, src/lsdb.cpp:493.  External (`Validator::validate`). -/
def Pki.accepts {ι : Type} (p : Pki ι) (d : Packet ι) : Prop :=
  ∃ k ct l, d.key = some k ∧ passes shipped d.name k = true ∧ Vouched shipped p.anchors k (ct :: l) ∧ p.signed (ct :: l) ∧
    p.owner ct = d.signer

variable {ι : Type} [DecidableEq ι]

/-- The routers, and the LSAs that stood in data sets, each with the router whose data set it was. -/
structure World (ι : Type) where
  net : State ι
  shown : List (ι × Lsa) := []

/-- Something happens in the network, or a router answers an interest for a data set: the LSAs of its LSDB
(src/publisher/dataset-interest-handler.cpp:60-69) or of a type of them; of the routing table nothing reads like an LSA. -/
inductive Ev (ι : Type)
  | net (op : Op ι)
  | dataset (j : ι)

/-- One event.  src/nlsr.cpp, src/publisher/dataset-interest-handler.cpp:60-69. -/
def World.step (c : ι → RConf) (W : World ι) : Ev ι → World ι
  | .net op => { W with net := Net.step c W.net op }
  | .dataset j => { W with shown := W.shown ++ (W.net j).r.core.lsdb.db.map (fun o => (j, o.lsa)) }

/-- What a router signs: the segments of its LSAs (src/lsdb.cpp:276-279); its data sets, whose content reads like an LSA if there
is one LSA in them (src/publisher/dataset-interest-handler.cpp:60-69; the name begins with that of the interest, so whoever asks
chooses its end); and data that never reads like an LSA, such as the answers to hellos (src/hello-protocol.cpp:128-132) and
certificates. -/
def World.signs (W : World ι) : Signer ι → Packet ι → Prop
  | .router j, d =>
    (∃ s l, .data s ∈ (W.net j).log ∧ d.name = s.name ∧ d.holds = some l ∧ Transmits s.lsa l) ∨
    (∃ s l, (j, s) ∈ W.shown ∧ d.holds = some l ∧ Transmits s l) ∨
    d.holds = none
  | .authority, d => d.holds = none
  | .stranger, _ => True

/-- What may happen at a router: a fetch ends with an LSA only if accepted data under the name asked for holds it
(src/lsdb.cpp:492-516).  All else may happen at any time. -/
def Gets (p : Pki ι) (W : World ι) (i : ι) : Router.Op → Prop
  | .core (.lsdb (.fetched m (some l))) => ∀ f, (W.net i).r.core.lsdb.fetches[m]? = some f →
    ∃ d : Packet ι, p.accepts d ∧ W.signs d.signer d ∧ (f.lsaName ++ [Comp.number f.seq]) <+: d.name ∧ d.holds = some l
  | _ => True

/-- The event in which a router is stopped is one that may happen. -/
def Stops (p : Pki ι) (W : World ι) (i : ι) : Kill → Prop
  | .idle => True
  | .event op _ => Gets p W i op
  | .start b _ _ _ _ => Stops p W i b

/-- What may happen.  src/main.cpp:85-86. -/
def Exposed (p : Pki ι) (W : World ι) : Ev ι → Prop
  | .net (.act i op) => Gets p W i op
  | .net (.restart i adjs _ _ kill) => Nbr.Fresh adjs ∧ Whole adjs ∧ Stops p W i kill
  | .dataset _ => True

/-- What the network can come to. -/
inductive Attacked (p : Pki ι) (c : ι → RConf) : World ι → Prop
  | start (disk : ι → Option Seqs) (adjs : ι → AdjacencyList) (npl : ι → List PrefixInfo) (sys : ι → Int)
      (hf : ∀ i, Nbr.Fresh (adjs i)) (hw : ∀ i, Whole (adjs i)) :
      Attacked p c ⟨fun i => ⟨Router.init (c i) (disk i) (adjs i) (npl i) (sys i), []⟩, []⟩
  | step {W : World ι} (h : Attacked p c W) (e : Ev ι) (ha : Exposed p W e) : Attacked p c (W.step c e)

/-- What those who run the network see to: no two routers have the same name, and `LSA` is not in the network's (see C57). -/
structure Named (c : ι → RConf) : Prop where
  distinct : ∀ i j, (c i).lsdb.router = (c j).lsdb.router → i = j
  lsa : ∀ i, Comp.str "LSA" ∉ (c i).lsdb.names.network

/-- Nobody outside has a key that counts: the anchors are not strangers', and who is not a stranger signs no certificates for
strangers. -/
structure Pki.Closed (p : Pki ι) : Prop where
  anchors : ∀ ct ∈ p.anchors, p.owner ct ≠ .stranger
  issued : ∀ ct, p.signer ct ≠ .stranger → p.owner ct ≠ .stranger

end Nlsr.Net
