import Verif.Model.Nbr
/-
Models src/security/certificate-store.cpp.

A certificate is its name, the name in its key locator (`none`: there is none, or it is a digest; asking for the name
throws) and some content.  ndn-cxx refuses certificates whose name is not `/<key>/<issuer>/<version>` with a key name
`/<identity>/KEY/<id>`.  The validator's cache of unverified certificates is a function from names to certificates; it
answers with a certificate whose name extends the name asked for.  Registration of prefixes with NFD is taken to
succeed.  Recursion that does not end is `none`.
-/
namespace Nlsr

/-- `ndn::security::Certificate` (external library) as far as src/security/certificate-store.cpp looks at it. -/
structure Cert where
  name : Name
  locator : Option Name
  content : List UInt8 := []
deriving DecidableEq, Repr

namespace Cert

/-- `Certificate::isValidName` of ndn-cxx: at least 4 components, and `[-4]` is `KEY`. -/
def validName (n : Name) : Bool := decide (n.fromEnd 4 = some Nbr.keyComp)

/-- `Certificate::getKeyName`, `extractKeyNameFromCertName`.  External library ndn-cxx; used on lines 65, 88 and 174. -/
def keyOf (n : Name) : Name := Name.getPrefix n (-2)

/-- `getKeyName`, line 65. -/
def keyName (c : Cert) : Name := keyOf c.name

end Cert

/-- `CertificateStore`, src/security/certificate-store.hpp:94-100, with what it does to the face. -/
structure CertStore where
  /-- `m_certificates` -/
  certs : List (Name × Cert) := []
  /-- prefixes with an interest filter -/
  filters : List Name := []
  /-- certificates sent -/
  sent : List Cert := []
  /-- an exception left the event loop -/
  dead : Bool := false
deriving DecidableEq, Repr

namespace CertStore

/-- `m_certificates[key] = cert`.  Line 65. -/
def put (m : List (Name × Cert)) (k : Name) (c : Cert) : List (Name × Cert) :=
  match m with
  | [] => [(k, c)]
  | p :: ps => if p.1 = k then (k, c) :: ps else p :: put ps k c

/-- `insert`, src/security/certificate-store.cpp:62-67. -/
def insert (s : CertStore) (c : Cert) : CertStore := { s with certs := put s.certs c.keyName c }

/-- `findByKeyName`, lines 78-83. -/
def findKey (s : CertStore) (n : Name) : Option Cert := (s.certs.find? (fun p => decide (p.1 = n))).map (·.2)

/-- `findByCertName`, lines 85-93. -/
def findCert (s : CertStore) (n : Name) : Option Cert :=
  match s.findKey (Cert.keyOf n) with
  | none => none
  | some c => if c.name = n then some c else none

/-- `find`, lines 69-76. -/
def find (s : CertStore) (n : Name) : Option Cert :=
  if Cert.validName n then s.findCert n else s.findKey n

/-- `setInterestFilter`, lines 95-103. -/
def listen (s : CertStore) (n : Name) : CertStore := { s with filters := s.filters ++ [n] }

/-- `registerKeyPrefixes`, lines 105-139. -/
def keyPrefixes (r : RouterConf) : List Name :=
  [r.routerPrefix ++ [Nbr.nlsrComp, Nbr.keyComp], r.routerPrefix ++ [Nbr.keyComp],
   r.network ++ r.site ++ [Nbr.operatorTag], r.network ++ r.site ++ [Nbr.keyComp]]

/-- The constructor, lines 35-45; `files` are the configured certificates (`getIdCerts`) and the one that
src/main.cpp:80-83 adds. -/
def init (r : RouterConf) (files : List Cert) : CertStore :=
  (keyPrefixes r).foldl listen (files.foldl insert {})

/-- `onKeyInterest`, lines 141-153, for interests that a filter lets through. -/
def interest (s : CertStore) (n : Name) : CertStore :=
  if s.filters.any (fun f => Name.isPrefixOf f n) then
    match s.find n with
    | none => s
    | some c => { s with sent := s.sent ++ [c] }
  else s

/-- `publishCertFromCache`, lines 167-188, with at most `fuel` nested calls. -/
def publish (cache : Name → Option Cert) : Nat → CertStore → Name → Option CertStore
  | 0, _, _ => none
  | fuel + 1, s, n =>
    match cache n with
    | none => some s
    | some c =>
      let s := (s.insert c).listen (Cert.keyOf c.name)
      match c.locator with
      | none => some { s with dead := true }
      | some k => if c.keyName ≠ k then publish cache fuel s k else some s

/-- A segment of an LSA was validated, lines 49-60; `kl` is the name in its key locator. -/
def segment (cache : Name → Option Cert) (fuel : Nat) (s : CertStore) (kl : Option Name) : Option CertStore :=
  match kl with
  | none => some s
  | some n => if (s.find n).isNone then publish cache fuel s n else some s

/-- What happens to the store: src/security/certificate-store.cpp:47-59, 140-152. -/
inductive Op
  /-- an interest -/
  | interest (n : Name)
  /-- a validated segment, and what the cache holds at that time -/
  | segment (cache : Name → Option Cert) (kl : Option Name)

/-- An operation; after an uncaught exception nothing happens any more (src/main.cpp:85-91). -/
def step (fuel : Nat) (s : CertStore) : Op → Option CertStore
  | .interest n => if s.dead then some s else some (s.interest n)
  | .segment cache kl => if s.dead then some s else s.segment cache fuel kl

/-- All of it; `none` if a recursion does not end within `fuel` calls.  Line 167-188 for the recursion. -/
def run (fuel : Nat) : CertStore → List Op → Option CertStore
  | s, [] => some s
  | s, op :: ops => match step fuel s op with
    | none => none
    | some s => run fuel s ops

end CertStore
end Nlsr
