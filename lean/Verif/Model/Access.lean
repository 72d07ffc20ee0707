import Verif.Model.Cmd
/-
Who is asked whether a command may be carried out: the dispatcher's prefixes (src/nlsr.cpp:93-95, 153-163), the commands
registered with it (src/update/prefix-update-processor.cpp:60-68, src/update/nfd-rib-command-processor.cpp:32-40) and their
authorization (src/update/prefix-update-processor.cpp:71-91, `makeAcceptAllAuthorization`).

Simplified: the validator's verdict is taken at once (it may have to fetch certificates first); an interest too short to have
parameters is dropped; replies are counted but not encoded.  The dispatcher itself is part of ndn-cxx.
-/
namespace Nlsr.Access

/-- The fields of a request's `ControlParameters` that the formats and the handlers look at.
src/update/prefix-update-commands.cpp:26-44, src/update/command-processor.cpp:42-51, 88-97. -/
structure Params where
  name : Option Name := none
  cost : Option Nat := none
  flags : Option Nat := none
  faceId : Option Nat := none
  /-- some other field is there -/
  other : Bool := false
deriving DecidableEq, Repr

/-- A command interest: its name and the name in the key locator of its signature (`none`: no signature, or one without key
locator).  src/update/prefix-update-processor.cpp:73-76. -/
structure Request where
  name : Name
  key : Option Name
deriving DecidableEq, Repr

/-- `RequestFormat` of the two commands, src/update/prefix-update-commands.cpp:26-30, 37-40. -/
def format : CmdVerb → Params → Bool
  | .advertise, p => p.name.isSome && p.faceId.isNone && !p.other
  | .withdraw, p => p.name.isSome && p.faceId.isNone && p.cost.isNone && !p.other

/-- A command the dispatcher knows: its relative name, the processor and the handler. -/
structure Handler where
  rel : Name
  via : CmdModule
  verb : CmdVerb
deriving DecidableEq, Repr

/-- The commands registered: src/update/prefix-update-processor.cpp:60-68 with the names of
src/update/prefix-update-commands.hpp:40-48, and src/update/nfd-rib-command-processor.cpp:32-40 with the names of ndn-cxx. -/
def handlers : List Handler :=
  [⟨nm ["prefix-update", "advertise"], .nlsr, .advertise⟩, ⟨nm ["prefix-update", "withdraw"], .nlsr, .withdraw⟩,
   ⟨nm ["rib", "register"], .rib, .advertise⟩, ⟨nm ["rib", "unregister"], .rib, .withdraw⟩]

/-- What does not change: the router's name, how ndn-cxx reads the parameters of the command with this relative name (`none`:
not a request; for the commands of ndn-cxx, also one of the wrong format; defaults filled in), and the verdict of
`m_validator`. -/
structure Env where
  router : Name
  decode : Name → Comp → Option Params
  valid : Request → Bool

/-- The prefixes the dispatcher listens under, src/nlsr.cpp:94-95.  One that overlaps with another is refused (`addTopPrefix` of
ndn-cxx throws), and that is logged (lines 160-162). -/
def tops (e : Env) : List Name :=
  let own := e.router ++ [Comp.str "nlsr"]
  let localhost := nm ["localhost", "nlsr"]
  if Name.isPrefixOf own localhost || Name.isPrefixOf localhost own then [own] else [own, localhost]

/-- What is there besides `CmdState`: the status codes the dispatcher answered by itself. -/
structure State where
  cmd : CmdState
  refused : List Nat := []

/-- The authorization a command was registered with: `makeAuthorization` (src/update/prefix-update-processor.cpp:71-91) or
`makeAcceptAllAuthorization` (src/update/nfd-rib-command-processor.cpp:33, 38). -/
def authorized (e : Env) (h : Handler) (r : Request) : Bool :=
  match h.via with
  | .nlsr => e.valid r
  | .rib => true

/-- The parameters are in order: for the commands of this repository, `validateRequest` with the formats of
src/update/prefix-update-commands.cpp:26-44. -/
def wellFormed (h : Handler) (p : Params) : Bool :=
  match h.via with
  | .nlsr => format h.verb p
  | .rib => p.name.isSome

/-- What the handler gets, src/update/command-processor.cpp:46-51, 92-97. -/
def cmdOf (h : Handler) (p : Params) : Cmd :=
  { via := h.via, verb := h.verb, name := p.name.getD [], cost := p.cost, flags := p.flags, faceId := p.faceId }

/-- One handler gets an interest whose name starts with the handler's prefix: parameters, authorization (403 if refused), format
(400 if wrong), handler.  External (`Dispatcher::processCommand`, `processAuthorizedCommand`) up to the handler. -/
def handle (c : LConf) (e : Env) (r : Request) (s : State) (at_ : Name × Handler) : State :=
  match r.name[(at_.1 ++ at_.2.rel).length]? with
  | none => s
  | some p =>
    match e.decode at_.2.rel p with
    | none => s
    | some q =>
      if authorized e at_.2 r then
        if wellFormed at_.2 q then { s with cmd := s.cmd.step c (.cmd (cmdOf at_.2 q)) }
        else { s with refused := s.refused ++ [400] }
      else { s with refused := s.refused ++ [403] }

/-- The places an interest is handled at: `addTopPrefix` sets an interest filter for each top prefix and command, src/nlsr.cpp:158. -/
def places (e : Env) : List (Name × Handler) := (tops e).flatMap (fun t => handlers.map (fun h => (t, h)))

/-- An interest arrives: every filter that fits hands it on. -/
def receive (c : LConf) (e : Env) (s : State) (r : Request) : State :=
  ((places e).filter (fun x => Name.isPrefixOf (x.1 ++ x.2.rel) r.name)).foldl (handle c e r) s

/-- What happens to the daemon (src/nlsr.cpp:67-83): a command interest arrives, or anything else happens to the LSDB. -/
inductive Ev
  | ask (r : Request)
  | lsdb (op : Lsdb.Op)

/-- One event (src/update/command-processor.cpp:42-130, src/lsdb.cpp). -/
def step (c : LConf) (e : Env) (s : State) : Ev → State
  | .ask r => receive c e s r
  | .lsdb op => { s with cmd := s.cmd.step c (.lsdb op) }

/-- A run of the daemon (src/main.cpp:85-86). -/
def run (c : LConf) (e : Env) (s : State) (evs : List Ev) : State := evs.foldl (step c e) s

end Nlsr.Access
