import Verif.Model.CertStore
import Verif.Model.Info
/-
The `security` section of the configuration: `ConfFileProcessor::processConfSectionSecurity`.

Not modelled: what `ValidatorConfig::load` makes of the rules (whether it throws is the environment's).
-/
namespace Nlsr

/-- What a name in `cert-to-publish` leads to: no such file (`fs::canonical` throws), a file without a certificate, or a
certificate and its canonical path.  src/conf-file-processor.cpp:655-669. -/
inductive CertFile
  | missing
  | unreadable
  | cert (path : Text) (c : Cert)

/-- What the section finds outside the file. -/
structure SecEnv where
  /-- whether `ValidatorConfig::load` accepts this tree (otherwise it throws) -/
  rules : Tree → Bool
  file : Text → CertFile

/-- The parts of `ConfParameter` that the section sets: the tree each validator was loaded with, the certificate files
(`m_certs`, a set), and the certificates both validators trust besides.  src/conf-parameter.hpp:440-470, 536-541. -/
structure Security where
  validator : Option Tree := none
  updates : Option Tree := none
  paths : List Text := []
  publish : List Cert := []
  anchors : List Cert := []

/-- How the section ends. -/
inductive SecOut
  /-- it is refused with a message -/
  | refused
  /-- an exception that nothing catches -/
  | aborted
  | done (s : Security)

namespace Security

/-- One certificate: `addCertPath` and `loadCertToValidator`.  src/conf-file-processor.cpp:655-670,
src/conf-parameter.hpp:460-464, src/conf-parameter.cpp:113-119; what the certificate store will hold is one certificate for
each path (src/security/certificate-store.cpp:40-43). -/
def add (s : Security) (path : Text) (c : Cert) : Security :=
  { s with
    paths := if path ∈ s.paths then s.paths else s.paths ++ [path]
    publish := if path ∈ s.paths then s.publish else s.publish ++ [c]
    anchors := s.anchors ++ [c] }

/-- The loop, src/conf-file-processor.cpp:650-671. -/
def certs (env : SecEnv) : List (Text × Tree) → Security → SecOut
  | [], s => .done s
  | x :: xs, s =>
    if x.1 ≠ "cert-to-publish".toList then .refused
    else match env.file x.2.data with
      | .missing => .aborted
      | .unreadable => .refused
      | .cert path c => certs env xs (s.add path c)

/-- `processConfSectionSecurity`, src/conf-file-processor.cpp:633-674. -/
def load (env : SecEnv) (t : Tree) (s : Security) : SecOut :=
  match t.kids with
  | [] => .refused
  | x :: xs =>
    if x.1 ≠ "validator".toList then .refused
    else if env.rules x.2 = false then .aborted
    else
      let s := { s with validator := some x.2 }
      match xs with
      | [] => .done s
      | y :: ys =>
        if y.1 = "prefix-update-validator".toList then
          if env.rules y.2 = false then .aborted
          else certs env ys { s with updates := some y.2 }
        else .done s

end Security
end Nlsr
