import Verif.Model.CertStore
/-
Models `ConfParameter::initializeKey` and what the daemon signs with, src/conf-parameter.cpp:121-167 and src/main.cpp:44-96.

The key chain (external library ndn-cxx) is the list of its identities, each with the default certificate of its default key,
and which of them is the default identity.  Deleting the default identity leaves none; the first identity added when there
is none becomes it (`PibSqlite3::addIdentity`).  Not modelled: the private keys, a key chain that cannot be opened, an identity without a key or a key without a certificate, the exceptions of
the "dummy key chain" patch (lines 137-141 and 150-158).
-/
namespace Nlsr.Start

/-- An identity of the key chain.  External. -/
structure Ident where
  name : Name
  cert : Cert
deriving DecidableEq, Repr

/-- The key chain.  External. -/
structure KeyRing where
  ids : List Ident := []
  dflt : Option Name := none
deriving DecidableEq, Repr

/-- `Pib::getIdentity`.  External; src/conf-parameter.cpp:129 and 145. -/
def KeyRing.find (k : KeyRing) (n : Name) : Option Ident := k.ids.find? (fun i => decide (i.name = n))

/-- `KeyChain::deleteIdentity`.  External; src/conf-parameter.cpp:145. -/
def KeyRing.delete (k : KeyRing) (n : Name) : KeyRing where
  ids := k.ids.filter (fun i => decide (i.name ≠ n))
  dflt := if k.dflt = some n then none else k.dflt

/-- `KeyChain::createIdentity`.  External; src/conf-parameter.cpp:160. -/
def KeyRing.add (k : KeyRing) (i : Ident) : KeyRing where
  ids := k.ids ++ [i]
  dflt := match k.dflt with
    | none => some i.name
    | some d => some d

/-- `ConfParameter::initializeKey`, src/conf-parameter.cpp:121-167: the key chain afterwards and the certificate, if there is
one.  `loc` is the key locator a signature by the key of a certificate gets (external); `kid`, `issuer` and `ver` are the
components that ndn-cxx chooses. -/
def initializeKey (loc : Cert → Name) (router : Name) (kid issuer ver : Comp) (k : KeyRing) : KeyRing × Option Cert :=
  match k.find router with
  | none => (k, none)
  | some r =>
    let inst := router ++ [Nbr.nlsrComp]
    let c : Cert := { name := inst ++ [Nbr.keyComp, kid, issuer, ver], locator := some (loc r.cert) }
    ((k.delete inst).add ⟨inst, c⟩, some c)

/-- The key locator of a packet signed without saying with what: that of the default identity; a digest has none.
External (`KeyChain::sign`). -/
def KeyRing.dfltLocator (loc : Cert → Name) (k : KeyRing) : Option Name :=
  k.dflt.bind (fun d => (k.find d).map (fun i => loc i.cert))

/-- The key locator of hello data and LSA segments: `m_signingInfo` is the certificate of `initializeKey`, or still what it was
made with.  src/conf-parameter.cpp:164, src/hello-protocol.cpp:139, src/lsdb.cpp:56. -/
def dataLocator (loc : Cert → Name) (k : KeyRing) (c : Option Cert) : Option Name :=
  match c with
  | some c => some (loc c)
  | none => k.dfltLocator loc

/-- The key locator of data sets: the dispatcher is not told what to sign with (`m_confParam.getSigningInfo()` is only for
registering the prefix).  src/nlsr.cpp:67, 152-163. -/
def datasetLocator (loc : Cert → Name) (k : KeyRing) : Option Name := k.dfltLocator loc

/-- The certificate store as src/main.cpp:82-85 makes it. -/
def store (r : RouterConf) (files : List Cert) (c : Option Cert) : CertStore :=
  match c with
  | some c => (CertStore.init r files).insert c
  | none => CertStore.init r files

end Nlsr.Start
