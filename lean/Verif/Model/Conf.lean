import Verif.Model.Info
import Verif.Model.Num
import Verif.Model.Npl
import Verif.Model.Adjacency
import Verif.Model.Names
import Verif.Model.Dbl
/-
Loading a configuration: src/conf-file-processor.cpp on the tree `read_info` made of the file, and the setters of
src/conf-parameter.{hpp,cpp}.

Not modelled: the contents of the `security` section (`Env.security`), resolving face URIs (`Env.faceUri`), the file
system (`Env.stateDir`), messages.  All three sync protocols are compiled in.
-/
namespace Nlsr

/-- What loading finds outside the configuration file.
src/conf-file-processor.cpp:335-386 (state directory), 474-497 (face URIs), 633-674 (security). -/
structure ConfEnv where
  /-- `FaceUri::parse` and `canonize`: the canonical URI, or a failure -/
  faceUri : Text → Option String
  /-- whether a `state-dir` passes all tests (exists, is a directory, can be written, the file is not the dynamic file) -/
  stateDir : Text → Bool
  /-- outcome of a `security` section -/
  security : Tree → Bool

/-- src/conf-parameter.hpp:38-42. -/
inductive SyncProtocol | chronosync | psync | svs
deriving DecidableEq, Repr

/-- `ConfParameter`, with its initial values: src/conf-parameter.cpp:38-60, src/conf-parameter.hpp:482-530.
`fetchTries = none`: `m_faceDatasetFetchTries` has no initialiser. -/
structure Params where
  protocol : SyncProtocol := .psync
  network : Name := []
  site : Name := []
  router : Name := []
  syncPrefix : Name := []
  lsaPrefix : Name := []
  routerPrefix : Name := []
  syncUserPrefix : Name := []
  /-- lsa-refresh-time, s -/
  refresh : Nat := 1800
  /-- router-dead-interval, s -/
  dead : Nat := 3600
  /-- lsa-interest-lifetime, s -/
  lifetime : Int := 4
  /-- sync-interest-lifetime, ms -/
  syncLifetime : Nat := 60000
  stateDir : Option Text := none
  /-- hello-retries -/
  retries : Int := 3
  /-- hello-timeout, s -/
  timeout : Nat := 1
  /-- hello-interval, s -/
  helloInterval : Nat := 60
  /-- adj-lsa-build-interval, s -/
  buildInterval : Nat := 10
  fetchTries : Option Nat := none
  /-- face-dataset-fetch-interval, s -/
  fetchInterval : Nat := 3600
  adjl : AdjacencyList := []
  hyp : HypState := .off
  corR : Rat := 0
  corTheta : List Rat := []
  /-- max-faces-per-prefix -/
  maxFaces : Int := 0
  /-- routing-calc-interval, s -/
  calcInterval : Nat := 15
  npl : Npl := []

namespace Conf

/-- `section.get_optional<std::string>(key)`: data of the first child with that key. -/
def lookup (key : String) (t : Tree) : Option Text := (t.kids.find? (fun x => x.1 = key.toList)).map (·.2.data)

/-- `section.get<uint32_t>(key, default)`.  External library (Boost); as in src/conf-file-processor.cpp:407, 419. -/
def getU32 (t : Tree) (key : String) (d : Nat) : Nat :=
  match lookup key t with
  | none => d
  | some v => (Num.parseUnsigned 32 v).getD d

/-- `section.get<int>(key, default)`.  External library (Boost); as in src/conf-file-processor.cpp:395, 578. -/
def getInt (t : Tree) (key : String) (d : Int) : Int :=
  match lookup key t with
  | none => d
  | some v => (Num.parseSigned 32 v).getD d

/-- `ConfigurationVariable<uint32_t>` made optional and with a range, src/conf-file-processor.cpp:44-139: a value that
cannot be read is replaced by the default. -/
def configVar (t : Tree) (key : String) (lo hi d : Nat) : Option Nat :=
  match lookup key t with
  | none => some d
  | some v =>
    match Num.parseUnsigned 32 v with
    | none => some d
    | some n => if n < lo ∨ hi < n then none else some n

/-- `Name(text)` that is not empty, as the sections require it.  src/conf-file-processor.cpp:219-248. -/
def nonEmptyName (t : Text) : Option Name :=
  match Uri.parseName t with
  | some n => if n = [] then none else some n
  | none => none

/-- `setNetwork`, src/conf-parameter.cpp:94-111; `SYNC_VERSION`, src/conf-parameter.hpp:534. -/
def setNetwork (p : Params) (n : Name) : Params :=
  { p with
    network := n
    syncPrefix := p.syncPrefix ++ (if p.protocol = .svs then [] else [Comp.str "localhop"]) ++ n ++
      [Comp.str "nlsr", Comp.str "sync", ⟨54, Tlv.encNni 12⟩]
    lsaPrefix := p.lsaPrefix ++ [Comp.str "localhop"] ++ n ++ [Comp.str "nlsr", Comp.str "LSA"] }

/-- src/conf-file-processor.cpp:216-248 -/
def protocolOf (t : Text) : Option SyncProtocol :=
  if t = "chronosync".toList then some .chronosync
  else if t = "psync".toList then some .psync
  else if t = "svs".toList then some .svs
  else none

/-- The names, src/conf-file-processor.cpp:250-283. -/
def generalNames (t : Tree) (p : Params) : Option Params := do
  let network ← lookup "network" t
  let site ← lookup "site" t
  let router ← lookup "router" t
  let network ← nonEmptyName network
  let site ← nonEmptyName site
  let router ← nonEmptyName router
  some { setNetwork p network with site := site, router := router }

/-- lsa-refresh-time to sync-interest-lifetime, src/conf-file-processor.cpp:285-336. -/
def generalTimes (t : Tree) (p : Params) : Option Params :=
  let refresh := getU32 t "lsa-refresh-time" 1800
  if ¬ (240 ≤ refresh ∧ refresh ≤ 7200) then none
  else
    let dead := getU32 t "router-dead-interval" (2 * refresh)
    if ¬ (refresh < dead) then none
    else
      let lifetime := getInt t "lsa-interest-lifetime" 4
      if ¬ (1 ≤ lifetime ∧ lifetime ≤ 60) then none
      else
        let sync := getU32 t "sync-interest-lifetime" 60000
        if ¬ (1000 ≤ sync ∧ sync ≤ 120000) then none
        else some { p with refresh := refresh, dead := dead, lifetime := lifetime, syncLifetime := sync }

/-- `processConfSectionGeneral`, src/conf-file-processor.cpp:213-389. -/
def general (env : ConfEnv) (t : Tree) (p : Params) : Option Params := do
  let proto ← protocolOf ((lookup "sync-protocol" t).getD "psync".toList)
  let p ← generalNames t { p with protocol := proto }
  let p ← generalTimes t p
  let dir ← lookup "state-dir" t
  if env.stateDir dir then some { p with stateDir := some dir } else none

/-- `get<double>("link-cost", Adjacent::DEFAULT_LINK_COST)`, src/conf-file-processor.cpp:498. -/
def linkCost (t : Tree) : Rat :=
  match lookup "link-cost" t with
  | none => 10
  | some v => (Num.parseDouble v).getD 10

/-- One `neighbor`, src/conf-file-processor.cpp:465-514.  A name with no components is only reported;
the constructor src/adjacent.cpp:53-64 tests the cost. -/
def neighbor (env : ConfEnv) (t : Tree) (p : Params) : Option Params := do
  let name ← lookup "name" t
  let uri ← lookup "face-uri" t
  let uri ← env.faceUri uri
  let cost := linkCost t
  let n ← Uri.parseName name
  if n = [] then some p
  else
    let a ← Adjacent.setLinkCost { name := n, uri := uri, status := .inactive, timedOut := 0, faceId := 0 } (.fin cost)
    some { p with adjl := (AdjacencyList.insert p.adjl a).1 }

/-- The `neighbor` loop.  src/conf-file-processor.cpp:467-514. -/
def neighborsLoop (env : ConfEnv) : List (Text × Tree) → Params → Option Params
  | [], p => some p
  | x :: xs, p =>
    if x.1 = "neighbor".toList then
      match neighbor env x.2 p with
      | some p => neighborsLoop env xs p
      | none => none
    else neighborsLoop env xs p

/-- hello-retries to face-dataset-fetch-interval, src/conf-file-processor.cpp:393-463. -/
def helloTimes (t : Tree) (p : Params) : Option Params :=
  let retries := getInt t "hello-retries" 3
  if ¬ (1 ≤ retries ∧ retries ≤ 15) then none
  else
    let timeout := getU32 t "hello-timeout" 1
    if ¬ (1 ≤ timeout ∧ timeout ≤ 15) then none
    else
      let interval := getU32 t "hello-interval" 60
      if ¬ (30 ≤ interval ∧ interval ≤ 90) then none
      else do
        let build ← configVar t "adj-lsa-build-interval" 5 30 10
        let tries ← configVar t "face-dataset-fetch-tries" 1 10 3
        let fetch ← configVar t "face-dataset-fetch-interval" 1800 5400 3600
        some { p with retries := retries, timeout := timeout, helloInterval := interval, buildInterval := build
                      fetchTries := some tries, fetchInterval := fetch }

/-- `processConfSectionNeighbors`, src/conf-file-processor.cpp:391-516. -/
def neighbors (env : ConfEnv) (t : Tree) (p : Params) : Option Params := do
  let p ← helloTimes t p
  neighborsLoop env t.kids p

/-- `boost::iequals` with a word of lower-case letters. -/
def iequals (t : Text) (w : String) : Bool := t.map Char.toLower == w.toList

/-- The loop over the angles, src/conf-file-processor.cpp:549-554. -/
def readAngles : Nat → Text → List Rat
  | 0, _ => []
  | fuel + 1, t =>
    match Num.readDouble t with
    | none => []
    | some (v, r) =>
      v :: readAngles fuel (match r with
        | ',' :: q | ' ' :: q => q
        | q => q)

/-- `processConfSectionHyperbolic`, src/conf-file-processor.cpp:518-572. -/
def hyperbolic (t : Tree) (p : Params) : Option Params :=
  let state := (lookup "state" t).getD "off".toList
  let h : Option HypState :=
    if iequals state "off" then some .off
    else if iequals state "on" then some .on
    else if iequals state "dry-run" then some .dryRun
    else none
  match h with
  | none => none
  | some h =>
    let p := { p with hyp := h }
    match (lookup "radius" t).bind Num.parseDouble, lookup "angle" t with
    | some radius, some angle =>
      if 0 ≤ radius then some { p with corR := radius, corTheta := readAngles (angle.length + 1) angle } else none
    | _, _ => if state = "on".toList ∨ state = "dry-run".toList then none else some p

/-- `processConfSectionFib`, src/conf-file-processor.cpp:574-603. -/
def fib (t : Tree) (p : Params) : Option Params :=
  let m := getInt t "max-faces-per-prefix" 0
  if ¬ (0 ≤ m ∧ m ≤ 60) then none
  else do
    let routing ← configVar t "routing-calc-interval" 0 15 15
    some { p with maxFaces := m, calcInterval := routing }

/-- `processConfSectionAdvertising`, src/conf-file-processor.cpp:605-631.  `Name(tn.first.data())` stops at a NUL. -/
def advertising : List (Text × Tree) → Params → Option Params
  | [], p => some p
  | x :: xs, p =>
    match nonEmptyName (x.1.takeWhile (· != '\x00')), Num.parseUnsigned 64 x.2.data with
    | some n, some cost => advertising xs { p with npl := (Npl.insert p.npl n "" (.fin (Dbl.roundNat cost : Nat))).2 }
    | _, _ => none

/-- `processSection`, src/conf-file-processor.cpp:184-211. -/
def section_ (env : ConfEnv) (name : Text) (t : Tree) (p : Params) : Option Params :=
  if name = "general".toList then general env t p
  else if name = "neighbors".toList then neighbors env t p
  else if name = "hyperbolic".toList then hyperbolic t p
  else if name = "fib".toList then fib t p
  else if name = "advertising".toList then advertising t.kids p
  else if name = "security".toList then (if env.security t then some p else none)
  else some p

/-- The loop of `load`, src/conf-file-processor.cpp:164-182. -/
def sections (env : ConfEnv) : List (Text × Tree) → Params → Option Params
  | [], p => some p
  | x :: xs, p =>
    match section_ env x.1 x.2 p with
    | some p => sections env xs p
    | none => none

/-- `buildRouterAndSyncUserPrefix`, src/conf-parameter.hpp:174-184. -/
def buildPrefixes (p : Params) : Params :=
  { p with
    routerPrefix := p.network ++ p.site ++ p.router
    syncUserPrefix := p.lsaPrefix ++ p.site ++ p.router }

/-- `processConfFile`, src/conf-file-processor.cpp:147-162; `none`: the daemon does not start (src/main.cpp). -/
def load (env : ConfEnv) (t : Tree) : Option Params := (sections env t.kids {}).map buildPrefixes

end Conf
end Nlsr
