import Verif.Model.CertStore
import Verif.Model.Uri
/-
The validation rules of the configuration file shipped with NLSR, nlsr.conf:132-318, and how ndn-cxx applies them
(external library: `ValidationPolicyConfig`, `Checker`, `Regex`, `Validator`).

Name patterns: the subset these rules use.  A component pattern is a regular expression that has to match the whole URI of
the component; the only special character in them is the period.  Rules are tried in their order and the first one whose
filter matches decides.  The hierarchical checker is, as documented by ndn-cxx, a hyper relation with
`k-regex ^([^<KEY>]*)<KEY><>{1,3}$` and `is-prefix-of`.

Not modelled: `sig-type` and the signatures themselves (whoever holds a key can sign with it, and no one else),
validity periods, the limit on the length of a chain, retries.
-/
namespace Nlsr.Schema

/-- A component pattern against the URI of a component: the period stands for any character.  External (`std::regex`). -/
def fits : Text → Text → Bool
  | [], [] => true
  | p :: ps, c :: cs => (p == '.' || p == c) && fits ps cs
  | _, _ => false

/-- A set of components: `<>`, `<a>` or `[<a><b>]`, `[^<a><b>]`.  External (`RegexComponentSetMatcher`). -/
inductive CSet
  | any
  | of (l : List Text)
  | but (l : List Text)

/-- Whether a component is in the set.  External (`RegexComponentSetMatcher::match`). -/
def CSet.has : CSet → Comp → Bool
  | .any, _ => true
  | .of l, c => l.any (fun p => fits p (Uri.ofComp c))
  | .but l, c => !l.any (fun p => fits p (Uri.ofComp c))

/-- A set, how many components of it in a row, and whether they are a group.  External (`RegexRepeatMatcher`). -/
structure Elem where
  set : CSet
  lo : Nat := 1
  hi : Option Nat := some 1
  cap : Bool := false

/-- Whether these components are such a row.  External (`RegexRepeatMatcher::match`). -/
def Elem.ok (e : Elem) (a : Name) : Bool :=
  decide (e.lo ≤ a.length) && (match e.hi with | none => true | some h => decide (a.length ≤ h)) && a.all e.set.has

/-- The first success, from a number downwards.  External (`RegexMatcher::recursiveMatch`: the loop over `tried`). -/
def down {α : Type} (f : Nat → Option α) : Nat → Option α
  | 0 => f 0
  | k + 1 => match f (k + 1) with
    | some x => some x
    | none => down f k

/-- The groups of the first match of a whole name, long rows first.  External (`RegexMatcher::recursiveMatch`). -/
def run : List Elem → Name → Option (List Name)
  | [], [] => some []
  | [], _ :: _ => none
  | e :: es, n =>
    down (fun k => if e.ok (n.take k) then (run es (n.drop k)).map (fun g => if e.cap then n.take k :: g else g) else none)
      n.length

/-- A pattern that starts with `^`; without `$` anything may follow.  External (`RegexTopMatcher`). -/
structure Regex where
  elems : List Elem
  closed : Bool := true

/-- `Regex::match`.  External library ndn-cxx. -/
def Regex.run (r : Regex) (n : Name) : Option (List Name) :=
  Schema.run (if r.closed then r.elems else r.elems ++ [{ set := .any, lo := 0, hi := none }]) n

/-- How a set is written in nlsr.conf. -/
def CSet.text : CSet → Text
  | .any => "<>".toList
  | .of [x] => '<' :: x ++ ['>']
  | .of l => '[' :: l.flatMap (fun x => '<' :: x ++ ['>']) ++ [']']
  | .but l => '[' :: '^' :: l.flatMap (fun x => '<' :: x ++ ['>']) ++ [']']

/-- How a row is written in nlsr.conf. -/
def Elem.text (e : Elem) : Text :=
  let t := e.set.text ++ (match e.lo, e.hi with
    | 1, some 1 => []
    | 0, none => ['*']
    | lo, some hi => '{' :: Uri.dec lo ++ ',' :: Uri.dec hi ++ ['}']
    | lo, none => '{' :: Uri.dec lo ++ [',', '}'])
  if e.cap then '(' :: t ++ [')'] else t

/-- How a pattern is written in nlsr.conf. -/
def Regex.text (r : Regex) : Text := '^' :: r.elems.flatMap Elem.text ++ (if r.closed then ['$'] else [])

/-- A checker: what it asks of the name of the packet and of the name in its key locator.  The groups that `k-expand` and
`p-expand` put together are all there are, in their order.  External (`Checker`). -/
inductive Check
  /-- `hyper-relation` with `h-relation equal` -/
  | equal (k p : Regex)
  /-- `type hierarchical` -/
  | hierarchical
  /-- `key-locator` with `regex` only -/
  | key (k : Regex)

/-- `<a>`: one component.  nlsr.conf. -/
def one (s : String) : Elem := { set := .of [s.toList] }
/-- `[<a><b>]`.  nlsr.conf. -/
def among (l : List String) : Elem := { set := .of (l.map String.toList) }
/-- `[^<a><b>]*`.  nlsr.conf. -/
def noneOf (l : List String) (cap : Bool := false) : Elem := { set := .but (l.map String.toList), lo := 0, hi := none, cap }
/-- `<>`.  nlsr.conf. -/
def anyOne : Elem := { set := .any }
/-- `(<>*)`.  nlsr.conf. -/
def anyCap : Elem := { set := .any, lo := 0, hi := none, cap := true }
/-- `<>{1,3}`.  nlsr.conf. -/
def upTo3 : Elem := { set := .any, hi := some 3 }

/-- A key of an NLSR instance, nlsr.conf:154, 182. -/
def kInstance : Regex := { elems := [noneOf ["KEY", "nlsr"] true, one "nlsr", one "KEY", upTo3] }
/-- A key of anyone, nlsr.conf:211, and the hierarchical checker. -/
def kAny : Regex := { elems := [noneOf ["KEY"] true, one "KEY", upTo3] }
/-- A key of an operator, nlsr.conf:239, 292. -/
def kOperator : Regex := { elems := [noneOf ["KEY", "%C1.Operator"] true, one "%C1.Operator", noneOf ["KEY"], one "KEY", upTo3] }

/-- What a checker says.  External (`HyperKeyLocatorNameChecker`, `Checker`). -/
def Check.holds (c : Check) (n key : Name) : Bool :=
  match c with
  | .equal k p => match k.run key, p.run n with
    | some a, some b => decide (a.flatten = b.flatten)
    | _, _ => false
  | .hierarchical => match kAny.run key with
    | some a => Name.isPrefixOf a.flatten n
    | none => false
  | .key k => (k.run key).isSome

/-- A rule of one filter and one checker.  External (`Rule`). -/
structure Rule where
  filter : Regex
  check : Check

/-- `ValidationPolicyConfig::checkPolicy`: the first rule whose filter matches decides; without one the packet is refused.
External library ndn-cxx. -/
def passes (rules : List Rule) (n key : Name) : Bool :=
  match rules.find? (fun r => (r.filter.run n).isSome) with
  | none => false
  | some r => r.check.holds n key

/-- "NLSR Hello Rule", nlsr.conf:136-162. -/
def helloRule : Rule where
  filter := { elems := [noneOf ["nlsr", "INFO"], one "nlsr", one "INFO", anyOne, anyOne] }
  check := .equal kInstance { elems := [noneOf ["nlsr", "INFO"] true, one "nlsr", one "INFO", anyOne, anyOne] }

/-- "NLSR LSA Rule", nlsr.conf:164-191. -/
def lsaRule : Rule where
  filter := { elems := [noneOf ["nlsr", "LSA"], one "nlsr", one "LSA"], closed := false }
  check := .equal kInstance
    { elems := [one "localhop", noneOf ["nlsr", "LSA"] true, one "nlsr", one "LSA", anyCap, anyOne, anyOne, anyOne, anyOne] }

/-- "NLSR datasets", nlsr.conf:193-219. -/
def datasetRule : Rule where
  filter := { elems := [noneOf ["nlsr"], one "nlsr", among ["lsdb", "routing-table"]], closed := false }
  check := .equal kAny { elems := [noneOf ["nlsr"] true, one "nlsr", among ["lsdb", "routing-table"]], closed := false }

/-- "NLSR Hierarchy Exception Rule", nlsr.conf:221-247. -/
def exceptionRule : Rule where
  filter := { elems := [noneOf ["KEY", "%C1.Router"], one "%C1.Router", noneOf ["KEY", "nlsr"], one "KEY", anyOne, anyOne, anyOne] }
  check := .equal kOperator
    { elems := [noneOf ["KEY", "%C1.Router"] true, one "%C1.Router", noneOf ["KEY"], one "KEY", anyOne, anyOne, anyOne] }

/-- "NLSR Hierarchical Rule", nlsr.conf:249-262 and 297-310. -/
def hierarchicalRule : Rule where
  filter := { elems := [noneOf ["KEY"], one "KEY", anyOne, anyOne, anyOne] }
  check := .hierarchical

/-- The rules for data from other routers, nlsr.conf:134-269. -/
def shipped : List Rule := [helloRule, lsaRule, datasetRule, exceptionRule, hierarchicalRule]

/-- "NLSR ControlCommand Rule", nlsr.conf:274-295. -/
def commandRule : Rule where
  filter := { elems := [one "localhost", one "nlsr", one "prefix-update", among ["advertise", "withdraw"], anyOne, anyOne, anyOne] }
  check := .key kOperator

/-- Whether a command interest passes the rules for prefix updates, nlsr.conf:272-317: the filter sees its name without the
two components of the signature.  External (`Filter::match`). -/
def commandPasses (n key : Name) : Bool := decide (2 ≤ n.length) && passes [commandRule] (Name.getPrefix n (-2)) key

/-- The rules for the certificates of those who send commands, nlsr.conf:297-310. -/
def updateShipped : List Rule := [hierarchicalRule]

/-- A key is vouched for by these certificates: the first one is the key's, each other one's key signed the one before it,
and the last one is an anchor.  A certificate answers a key locator that is a prefix of its name; one that is not an
anchor has to pass the rules itself.  External (`Validator::validate`, `requestCertificate`, `findTrustedCert`). -/
inductive Vouched (rules : List Rule) (anchors : List Cert) : Name → List Cert → Prop
  | anchor {k : Name} {c : Cert} (hc : c ∈ anchors) (hk : Name.isPrefixOf k c.name = true) : Vouched rules anchors k [c]
  | step {k k' : Name} {c : Cert} {l : List Cert} (hk : Name.isPrefixOf k c.name = true) (hv : Cert.validName c.name = true)
      (hl : c.locator = some k') (hp : passes rules c.name k' = true) (h : Vouched rules anchors k' l) :
      Vouched rules anchors k (c :: l)

end Nlsr.Schema
