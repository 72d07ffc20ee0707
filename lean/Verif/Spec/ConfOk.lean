import Verif.Model.Conf
/-
Which configuration files the daemon starts with, in terms of what nlsr.conf documents: the words, names and numbers of each
section (nlsr.conf:3-75 general, 76-131 neighbors, hyperbolic, fib and advertising; the bounds are those of
src/conf-parameter.hpp:43-116).  Written without the functions that process the sections; `Conf.lookup` is the text after the first occurrence of
a key, `Num.parseUnsigned`, `Num.parseSigned`, `Num.parseDouble` and `Uri.parseName` read numbers and names.
-/
namespace Nlsr.ConfOk
open Conf

/-- The number after a key; the default if the key is missing or what follows is no number of 32 bits. -/
def num (t : Tree) (key : String) (d : Nat) : Nat := ((lookup key t).bind (Num.parseUnsigned 32)).getD d

/-- The same for signed numbers. -/
def int (t : Tree) (key : String) (d : Int) : Int := ((lookup key t).bind (Num.parseSigned 32)).getD d

/-- `general`. -/
def General (env : ConfEnv) (t : Tree) : Prop :=
  (∀ w, lookup "sync-protocol" t = some w → w ∈ ["chronosync".toList, "psync".toList, "svs".toList]) ∧
  (∀ key ∈ ["network", "site", "router"], ∃ w n, lookup key t = some w ∧ Uri.parseName w = some n ∧ n ≠ []) ∧
  (240 ≤ num t "lsa-refresh-time" 1800 ∧ num t "lsa-refresh-time" 1800 ≤ 7200) ∧
  num t "lsa-refresh-time" 1800 < num t "router-dead-interval" (2 * num t "lsa-refresh-time" 1800) ∧
  (1 ≤ int t "lsa-interest-lifetime" 4 ∧ int t "lsa-interest-lifetime" 4 ≤ 60) ∧
  (1000 ≤ num t "sync-interest-lifetime" 60000 ∧ num t "sync-interest-lifetime" 60000 ≤ 120000) ∧
  ∃ dir, lookup "state-dir" t = some dir ∧ env.stateDir dir = true

/-- A `neighbor`: a name and a face URI, and no negative cost (but -12345 and, for the name /, any). -/
def Neighbor (env : ConfEnv) (t : Tree) : Prop :=
  ∃ w u n, lookup "name" t = some w ∧ lookup "face-uri" t = some u ∧ (env.faceUri u).isSome = true ∧ Uri.parseName w = some n ∧
    (n = [] ∨ ∀ q, (lookup "link-cost" t).bind Num.parseDouble = some q → 0 ≤ q ∨ q = -12345)

/-- `neighbors`. -/
def Neighbors (env : ConfEnv) (t : Tree) : Prop :=
  (1 ≤ int t "hello-retries" 3 ∧ int t "hello-retries" 3 ≤ 15) ∧ (1 ≤ num t "hello-timeout" 1 ∧ num t "hello-timeout" 1 ≤ 15) ∧
  (30 ≤ num t "hello-interval" 60 ∧ num t "hello-interval" 60 ≤ 90) ∧
  (5 ≤ num t "adj-lsa-build-interval" 10 ∧ num t "adj-lsa-build-interval" 10 ≤ 30) ∧
  (1 ≤ num t "face-dataset-fetch-tries" 3 ∧ num t "face-dataset-fetch-tries" 3 ≤ 10) ∧
  (1800 ≤ num t "face-dataset-fetch-interval" 3600 ∧ num t "face-dataset-fetch-interval" 3600 ≤ 5400) ∧
  ∀ x ∈ t.kids, x.1 = "neighbor".toList → Neighbor env x.2

/-- `hyperbolic`: a state in letters of either case; a radius that is not negative and angles, without which the state is
neither `on` nor `dry-run` (in these letters). -/
def Hyperbolic (t : Tree) : Prop :=
  (∀ w, lookup "state" t = some w → w.map Char.toLower ∈ ["off".toList, "on".toList, "dry-run".toList]) ∧
  (∀ r, (lookup "radius" t).bind Num.parseDouble = some r → (lookup "angle" t).isSome = true → 0 ≤ r) ∧
  (((lookup "radius" t).bind Num.parseDouble = none ∨ lookup "angle" t = none) →
    lookup "state" t ≠ some "on".toList ∧ lookup "state" t ≠ some "dry-run".toList)

/-- `fib`. -/
def Fib (t : Tree) : Prop :=
  (0 ≤ int t "max-faces-per-prefix" 0 ∧ int t "max-faces-per-prefix" 0 ≤ 60) ∧ num t "routing-calc-interval" 15 ≤ 15

/-- `advertising`: each line is a name and its cost. -/
def Advertising (t : Tree) : Prop :=
  ∀ x ∈ t.kids, (∃ n, Uri.parseName (x.1.takeWhile (· != '\x00')) = some n ∧ n ≠ []) ∧ (Num.parseUnsigned 64 x.2.data).isSome = true

/-- A section. -/
def Section (env : ConfEnv) (x : Text × Tree) : Prop :=
  (x.1 = "general".toList → General env x.2) ∧ (x.1 = "neighbors".toList → Neighbors env x.2) ∧
  (x.1 = "hyperbolic".toList → Hyperbolic x.2) ∧ (x.1 = "fib".toList → Fib x.2) ∧
  (x.1 = "advertising".toList → Advertising x.2) ∧ (x.1 = "security".toList → env.security x.2 = true)

end Nlsr.ConfOk
