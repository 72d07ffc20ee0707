import Verif.Props.Cmd
import Verif.Lemmas.ConfNpl
/- C51: saved prefixes. -/
namespace Nlsr
open CmdState Conf

/-- The name an advertising entry gives. -/
def entryName (x : Text × Tree) : Option Name := nonEmptyName (x.1.takeWhile (· != '\x00'))

def costOf (l : Npl) (n : Name) : Option (Ext Rat) := (l.get n).map (·.cost)

theorem advertising_cons (x : Text × Tree) (xs : List (Text × Tree)) (p q : Params) :
    advertising (x :: xs) p = some q ↔ ∃ n k, entryName x = some n ∧ Num.parseUnsigned 64 x.2.data = some k ∧
      advertising xs { p with npl := (Npl.insert p.npl n "" (.fin (Dbl.roundNat k : Nat))).2 } = some q := by
  rw [advertising]
  unfold entryName
  cases nonEmptyName (x.1.takeWhile (· != '\x00')) with
  | none => simp
  | some n =>
    cases Num.parseUnsigned 64 x.2.data with
    | none => simp
    | some k => simp

theorem advertising_append : ∀ (a b : List (Text × Tree)) (p q : Params),
    advertising (a ++ b) p = some q ↔ ∃ r, advertising a p = some r ∧ advertising b r = some q
  | [], b, p, q => by
    show advertising b p = some q ↔ ∃ r, some p = some r ∧ _
    simp
  | x :: a, b, p, q => by
    rw [List.cons_append, advertising_cons]
    constructor
    · rintro ⟨n, k, h1, h2, h3⟩
      obtain ⟨r, h4, h5⟩ := (advertising_append a b _ q).1 h3
      exact ⟨r, (advertising_cons ..).2 ⟨n, k, h1, h2, h4⟩, h5⟩
    · rintro ⟨r, h4, h5⟩
      obtain ⟨n, k, h1, h2, h3⟩ := (advertising_cons ..).1 h4
      exact ⟨n, k, h1, h2, (advertising_append a b _ q).2 ⟨r, h3, h5⟩⟩

theorem advertising_sorted : ∀ {a : List (Text × Tree)} {p q : Params}, advertising a p = some q →
    Npl.Sorted p.npl → Npl.Sorted q.npl
  | [], p, q, h, hs => by injection h with h; rwa [← h]
  | x :: a, p, q, h, hs => by
    obtain ⟨n, k, -, -, h⟩ := (advertising_cons ..).1 h
    exact advertising_sorted h (Npl.insert_sorted hs ..)

/-- Entries for other names do not touch the cost of `n`. -/
theorem advertising_keep {n : Name} : ∀ {a : List (Text × Tree)} {p q : Params}, advertising a p = some q →
    Npl.Sorted p.npl → (∀ y ∈ a, entryName y ≠ some n) → costOf q.npl n = costOf p.npl n
  | [], p, q, h, hs, _ => by injection h with h; rw [h]
  | x :: a, p, q, h, hs, hn => by
    obtain ⟨m, k, h1, -, h⟩ := (advertising_cons ..).1 h
    rw [advertising_keep h (Npl.insert_sorted hs ..) (fun y hy => hn y (List.mem_cons_of_mem _ hy))]
    unfold costOf
    dsimp only
    rw [Npl.get_insert_cost hs, if_neg]
    rintro rfl
    exact hn x (List.mem_cons_self ..) h1

/-- The same entries on lists that agree except on `n` give lists that agree except on `n`. -/
theorem advertising_congr {n : Name} : ∀ {a : List (Text × Tree)} {p q p' : Params}, advertising a p = some q →
    Npl.Sorted p.npl → Npl.Sorted p'.npl → (∀ m, m ≠ n → costOf p'.npl m = costOf p.npl m) →
    ∃ q', advertising a p' = some q' ∧ ∀ m, m ≠ n → costOf q'.npl m = costOf q.npl m
  | [], p, q, p', h, _, _, hc => by injection h with h; exact ⟨p', rfl, by rwa [← h]⟩
  | x :: a, p, q, p', h, hs, hs', hc => by
    obtain ⟨m, k, h1, h2, h⟩ := (advertising_cons ..).1 h
    obtain ⟨q', h3, h4⟩ := advertising_congr (p' := { p' with npl := (Npl.insert p'.npl m "" (.fin (Dbl.roundNat k : Nat))).2 }) h
      (Npl.insert_sorted hs ..) (Npl.insert_sorted hs' ..) (by
        intro j hj
        unfold costOf
        dsimp only
        rw [Npl.get_insert_cost hs, Npl.get_insert_cost hs']
        split
        · rfl
        · exact hc j hj)
    exact ⟨q', (advertising_cons ..).2 ⟨m, k, h1, h2, h3⟩, h4⟩

/-! Trees. -/

theorem modifyFirst_split {key : Text} {f : Tree → Tree} {pre post : List (Text × Tree)} {x : Tree}
    (h : ∀ y ∈ pre, y.1 ≠ key) :
    Tree.modifyFirst key f (pre ++ (key, x) :: post) = pre ++ (key, f x) :: post := by
  induction pre with
  | nil => show (if key = key then _ else _) = _; rw [if_pos rfl]; rfl
  | cons y pre ih =>
    rw [List.cons_append, Tree.modifyFirst, if_neg (h y (List.mem_cons_self ..)),
      ih (fun z hz => h z (List.mem_cons_of_mem _ hz))]
    rfl

/-- The first entry with that key, if there is one. -/
theorem split_first (key : Text) (kids : List (Text × Tree)) :
    (kids.any (fun x => x.1 = key) = false ∧ ∀ y ∈ kids, y.1 ≠ key) ∨
    (kids.any (fun x => x.1 = key) = true ∧ ∃ a x b, kids = a ++ (key, x) :: b ∧ ∀ y ∈ a, y.1 ≠ key) := by
  induction kids with
  | nil => exact Or.inl ⟨rfl, nofun⟩
  | cons y ys ih =>
    by_cases hy : y.1 = key
    · exact Or.inr ⟨by simp [hy], [], y.2, ys, by rw [← hy]; rfl, nofun⟩
    · rcases ih with ⟨h1, h2⟩ | ⟨h1, a, x, b, h2, h3⟩
      · refine Or.inl ⟨by simp only [List.any_cons, h1]; simp [hy], ?_⟩
        intro z hz
        rcases List.mem_cons.1 hz with rfl | hz
        · exact hy
        · exact h2 z hz
      · refine Or.inr ⟨by simp only [List.any_cons, h1]; simp, y :: a, x, b, by rw [h2]; rfl, ?_⟩
        intro z hz
        rcases List.mem_cons.1 hz with rfl | hz
        · exact hy
        · exact h3 z hz

/-- Where the data of an entry is set: the first one with the key, or a new one at the end. -/
inductive PutEntry (key v : Text) : List (Text × Tree) → List (Text × Tree) → Prop
  | new (l : List (Text × Tree)) (h : ∀ y ∈ l, y.1 ≠ key) : PutEntry key v l (l ++ [(key, .node v [])])
  | changed (a b : List (Text × Tree)) (d : Text) (k : List (Text × Tree)) (h : ∀ y ∈ a, y.1 ≠ key) :
      PutEntry key v (a ++ (key, .node d k) :: b) (a ++ (key, .node v k) :: b)

theorem put_entry (key v d : Text) (kids : List (Text × Tree)) :
    ∃ kids', Tree.put v [key] (.node d kids) = .node d kids' ∧ PutEntry key v kids kids' := by
  unfold Tree.put
  rcases split_first key kids with ⟨h1, h2⟩ | ⟨h1, a, x, b, rfl, h3⟩
  · rw [h1]
    exact ⟨_, rfl, .new _ h2⟩
  · rw [h1]
    cases x with
    | node d' k =>
      rw [if_pos rfl, modifyFirst_split h3]
      exact ⟨_, rfl, .changed a b d' k h3⟩

theorem put_section {v d uri : Text} {pre post : List (Text × Tree)} {x : Tree}
    (h : ∀ y ∈ pre, y.1 ≠ "advertising".toList) :
    Tree.put v ["advertising".toList, uri] (.node d (pre ++ ("advertising".toList, x) :: post)) =
      .node d (pre ++ ("advertising".toList, Tree.put v [uri] x) :: post) := by
  rw [Tree.put]
  rw [if_pos (by simp), modifyFirst_split h]

theorem sectionOf_split {n : Name} (hdot : '.' ∉ Uri.ofName n) :
    Uri.splitAt '.' (sectionOf n) = ["advertising".toList, Uri.ofName n] := by
  have e : sectionOf n = "advertising".toList ++ '.' :: Uri.ofName n := by
    unfold sectionOf
    have : "advertising.".toList = "advertising".toList ++ ['.'] := by decide
    rw [this]
    simp
  rw [e, Uri.splitAt_append (by decide), Uri.splitAt_no hdot]

/-- Characters of a printed name. -/
theorem ofName_chars (n : Name) : ∀ c ∈ Uri.ofName n, Uri.inComp c = true ∨ c = '/' := by
  intro c hc
  unfold Uri.ofName at hc
  split at hc
  · simp at hc; exact Or.inr hc
  · obtain ⟨x, -, h⟩ := List.mem_flatMap.1 hc
    rcases List.mem_cons.1 h with rfl | h
    · exact Or.inr rfl
    · exact Or.inl (Uri.ofComp_inComp x c h)

theorem entryName_ofName {n : Name} (hn : n ≠ []) (ht : ∀ x ∈ n, 1 ≤ x.typ ∧ x.typ ≤ 65535) (t : Tree) :
    entryName (Uri.ofName n, t) = some n := by
  unfold entryName
  dsimp only
  rw [Num.takeWhile_all]
  · unfold nonEmptyName
    rw [Uri.parseName_ofName ht]
    dsimp only
    rw [if_neg hn]
  · intro c hc
    rcases ofName_chars n c hc with h | h
    · have : Uri.inComp '\x00' = false := by decide
      simp only [bne_iff_ne, ne_eq]
      rintro rfl
      rw [this] at h
      cases h
    · rw [h]; decide

/-! Saving. -/

/-- A configuration file the editor can change: it has one `advertising` section, with entries `kids`. -/
structure EditableFile (f : ConfFile) (pre post kids : List (Text × Tree)) : Prop where
  writable : f.writable = true
  tree : ∃ d xd, f.tree = some (.node d (pre ++ ("advertising".toList, .node xd kids) :: post))
  pre : ∀ y ∈ pre, y.1 ≠ "advertising".toList
  post : ∀ y ∈ post, y.1 ≠ "advertising".toList

theorem addOrDelete_add {f : ConfFile} {pre post kids : List (Text × Tree)} (hf : EditableFile f pre post kids) {n : Name}
    (hdot : '.' ∉ Uri.ofName n) {k : Nat} (hnew : lineOf n k ∉ f.lines) :
    ∃ f' kids', addOrDelete (some f) n k true = (true, some f') ∧ EditableFile f' pre post kids' ∧
      PutEntry (Uri.ofName n) (Uri.dec k) kids kids' ∧ (∀ t, f'.tree = some t → f'.lines = t.fileLines) := by
  obtain ⟨d, xd, ht⟩ := hf.tree
  obtain ⟨kids', h1, h2⟩ := put_entry (Uri.ofName n) (Uri.dec k) xd kids
  unfold addOrDelete
  dsimp only
  rw [if_pos rfl, if_neg (by unfold inFile; simpa using hnew)]
  unfold ConfFile.put
  rw [ht]
  dsimp only
  rw [sectionOf_split hdot, put_section hf.pre, h1]
  unfold ConfFile.save
  rw [if_pos hf.writable]
  refine ⟨_, kids', rfl, ⟨hf.writable, ⟨d, xd, rfl⟩, hf.pre, hf.post⟩, h2, ?_⟩
  rintro t ⟨⟩
  rfl

theorem addOrDelete_delete {f : ConfFile} {pre post kids : List (Text × Tree)} (hf : EditableFile f pre post kids) {n : Name}
    (hdot : '.' ∉ Uri.ofName n) {k : Nat} (hline : lineOf n k ∈ f.lines) :
    ∃ f', addOrDelete (some f) n k false = (true, some f') ∧
      EditableFile f' pre post (kids.filter (fun x => !decide (x.1 = Uri.ofName n))) := by
  obtain ⟨d, xd, ht⟩ := hf.tree
  unfold addOrDelete
  dsimp only
  rw [if_neg (by simp), if_neg (by unfold inFile; simpa using hline)]
  unfold ConfFile.remove
  rw [ht]
  dsimp only
  rw [sectionOf_split hdot]
  have e1 : (["advertising".toList, Uri.ofName n].getLast?).getD [] = Uri.ofName n := rfl
  have e2 : ["advertising".toList, Uri.ofName n].dropLast = ["advertising".toList] := rfl
  rw [e1, e2, Tree.remove, modifyFirst_split hf.pre, Tree.remove]
  unfold ConfFile.save
  rw [if_pos hf.writable]
  exact ⟨_, rfl, hf.writable, ⟨d, xd, rfl⟩, hf.pre, hf.post⟩

theorem advertise_file (c : LConf) (s : CmdState) (x : Cmd) (hv : x.verb = .advertise) (hvia : x.via = .nlsr)
    (hfl : x.flags = some 1) (hk : x.cost.getD 0 < 2 ^ 53) :
    (step c s (.cmd x)).file = (addOrDelete s.file x.name (x.cost.getD 0) true).2 ∧
    codeOf c s x = some (if (addOrDelete s.file x.name (x.cost.getD 0) true).1 then 205 else 500) := by
  have hr : Dbl.roundNat (x.cost.getD 0) = x.cost.getD 0 := by unfold Dbl.roundNat; rw [if_pos hk]
  have key : ∀ t : CmdState, t.file = s.file → t.replies = s.replies →
      (t.saveReply x (x.cost.getD 0)).file = (addOrDelete s.file x.name (x.cost.getD 0) true).2 ∧
      (((t.saveReply x (x.cost.getD 0)).replies)[s.replies.length]?).map (·.code) =
        some (if (addOrDelete s.file x.name (x.cost.getD 0) true).1 then 205 else 500) := by
    intro t h1 h2
    have hu : Dbl.toU64 (x.cost.getD 0) = some (x.cost.getD 0) := by
      unfold Dbl.toU64
      rw [if_pos (Nat.lt_trans hk (by decide))]
    unfold saveReply
    rw [hvia]
    dsimp only
    rw [hu]
    dsimp only [reply]
    rw [h1, h2]
    exact ⟨rfl, by simp⟩
  have hstep : step c s (.cmd x) = s.advertise c x := by
    show (match x.verb with | .advertise => s.advertise c x | .withdraw => s.withdraw c x) = _
    rw [hv]
  unfold codeOf
  rw [hstep]
  unfold advertise
  dsimp only
  rw [hr, if_pos hfl, if_pos hfl]
  split
  · exact key _ rfl rfl
  · exact key _ rfl rfl

theorem withdraw_file (c : LConf) (s : CmdState) (x : Cmd) (hv : x.verb = .withdraw) (hvia : x.via = .nlsr)
    (hfl : x.flags = some 1) :
    (step c s (.cmd x)).file = (addOrDelete s.file x.name 0 false).2 ∧
    codeOf c s x = some (if (addOrDelete s.file x.name 0 false).1 then 205 else 500) := by
  have key : ∀ t : CmdState, t.file = s.file → t.replies = s.replies →
      (t.deleteReply x).file = (addOrDelete s.file x.name 0 false).2 ∧
      (((t.deleteReply x).replies)[s.replies.length]?).map (·.code) =
        some (if (addOrDelete s.file x.name 0 false).1 then 205 else 500) := by
    intro t h1 h2
    unfold deleteReply
    rw [hvia]
    dsimp only [reply]
    rw [h1, h2]
    exact ⟨rfl, by simp⟩
  have hstep : step c s (.cmd x) = s.withdraw c x := by
    show (match x.verb with | .advertise => s.advertise c x | .withdraw => s.withdraw c x) = _
    rw [hv]
  unfold codeOf
  rw [hstep]
  unfold withdraw
  dsimp only
  rw [if_pos hfl, if_pos hfl]
  split
  · exact key _ rfl rfl
  · exact key _ rfl rfl

theorem putEntry_spec {key v : Text} {kids kids' : List (Text × Tree)} (h : PutEntry key v kids kids') :
    (kids'.find? (fun y => y.1 = key)).map (·.2.data) = some v ∧
    kids'.filter (fun y => y.1 ≠ key) = kids.filter (fun y => y.1 ≠ key) := by
  cases h with
  | new l h =>
    constructor
    · rw [List.find?_append, List.find?_eq_none.2 (fun y hy => by simpa using h y hy)]
      simp [Tree.data]
    · simp
  | changed a b d k h =>
    constructor
    · rw [List.find?_append, List.find?_eq_none.2 (fun y hy => by simpa using h y hy)]
      simp [Tree.data]
    · simp

/-- C51, saving, for names whose URI has no period and costs below 2^53: `advertise p cost c save`, if the very same line is
not yet there, is answered 205; the file then has p with cost c in its advertising section, and the other entries and
the other sections are as before.  Missing: URIs with a period (`C51_violated_period`), larger costs
(`C51_violated_cost`, `C51_violated_undefined`). -/
theorem C51_saved_partial {c : LConf} {s : CmdState} {f : ConfFile} {pre post kids : List (Text × Tree)}
    (hs : s.file = some f) (hf : EditableFile f pre post kids) (n : Name) (k : Nat) (fid : Option Nat)
    (hk : k < 2 ^ 53) (hdot : '.' ∉ Uri.ofName n) (hnew : lineOf n k ∉ f.lines) :
    let x : Cmd := { via := .nlsr, verb := .advertise, name := n, cost := some k, flags := some 1, faceId := fid }
    codeOf c s x = some 205 ∧ ∃ f' kids', (step c s (.cmd x)).file = some f' ∧ EditableFile f' pre post kids' ∧
      (kids'.find? (fun y => y.1 = Uri.ofName n)).map (·.2.data) = some (Uri.dec k) ∧
      kids'.filter (fun y => y.1 ≠ Uri.ofName n) = kids.filter (fun y => y.1 ≠ Uri.ofName n) := by
  intro x
  obtain ⟨f', kids', h1, h2, h3, -⟩ := addOrDelete_add hf hdot hnew
  obtain ⟨e1, e2⟩ := advertise_file c s x rfl rfl rfl hk
  have h1 : addOrDelete s.file x.name (x.cost.getD 0) true = (true, some f') := by rw [hs]; exact h1
  rw [h1] at e1 e2
  obtain ⟨h4, h5⟩ := putEntry_spec h3
  exact ⟨e2, f', kids', e1, h2, h4, h5⟩

/-- C51, deleting, under the same restriction and if the line that the editor writes for cost 0 is there: `withdraw p delete`
is answered 205; no entry for p is left in the file, everything else is as before.  Missing: other saved costs
(`C51_violated_delete`) and other spacing. -/
theorem C51_deleted_partial {c : LConf} {s : CmdState} {f : ConfFile} {pre post kids : List (Text × Tree)}
    (hs : s.file = some f) (hf : EditableFile f pre post kids) (n : Name) (fid : Option Nat)
    (hdot : '.' ∉ Uri.ofName n) (hline : "    ".toList ++ Uri.ofName n ++ " 0".toList ∈ f.lines) :
    let x : Cmd := { via := .nlsr, verb := .withdraw, name := n, flags := some 1, faceId := fid }
    codeOf c s x = some 205 ∧ ∃ f', (step c s (.cmd x)).file = some f' ∧
      EditableFile f' pre post (kids.filter (fun y => !decide (y.1 = Uri.ofName n))) := by
  intro x
  obtain ⟨f', h1, h2⟩ := addOrDelete_delete hf hdot (k := 0) (by
    have e : lineOf n 0 = "    ".toList ++ Uri.ofName n ++ " 0".toList := by
      unfold lineOf
      have : Uri.dec 0 = "0".toList := by decide +kernel
      rw [this]
      simp
    rw [e]; exact hline)
  obtain ⟨e1, e2⟩ := withdraw_file c s x rfl rfl rfl
  have h1 : addOrDelete s.file x.name 0 false = (true, some f') := by rw [hs]; exact h1
  rw [h1] at e1 e2
  exact ⟨e2, f', e1, h2⟩

/-! Restarting with the saved file. -/

theorem entryName_key (k : Text) (t t' : Tree) : entryName (k, t) = entryName (k, t') := rfl

theorem advertising_put {n : Name} {k : Nat} (hn : n ≠ []) (ht : ∀ x ∈ n, 1 ≤ x.typ ∧ x.typ ≤ 65535) (hk : k < 2 ^ 53)
    {kids kids' : List (Text × Tree)} (hput : PutEntry (Uri.ofName n) (Uri.dec k) kids kids')
    (hone : ∀ a y b, kids = a ++ y :: b → entryName y = some n → ∀ z ∈ b, entryName z ≠ some n) {p q : Params}
    (hkey : ∀ y ∈ kids, entryName y = some n → y.1 = Uri.ofName n)
    (hs : Npl.Sorted p.npl) (h : advertising kids p = some q) :
    ∃ q', advertising kids' p = some q' ∧ costOf q'.npl n = some (.fin (k : Nat)) ∧
      ∀ m, m ≠ n → costOf q'.npl m = costOf q.npl m := by
  have hpu : Num.parseUnsigned 64 (Uri.dec k) = some k := Num.parseUnsigned_dec (Nat.lt_trans hk (by decide))
  have hr : Dbl.roundNat k = k := by unfold Dbl.roundNat; rw [if_pos hk]
  have hins : ∀ r : Params, Npl.Sorted r.npl → ∀ m, costOf (Npl.insert r.npl n "" (.fin (k : Nat))).2 m =
      if m = n then some (.fin (k : Nat)) else costOf r.npl m := by
    intro r hr m
    unfold costOf
    rw [Npl.get_insert_cost hr]
  cases hput with
  | new l hl =>
    refine ⟨{ q with npl := (Npl.insert q.npl n "" (.fin (Dbl.roundNat k : Nat))).2 }, ?_, ?_, ?_⟩
    · refine (advertising_append ..).2 ⟨q, h, (advertising_cons ..).2 ⟨n, k, entryName_ofName hn ht _, hpu, rfl⟩⟩
    · rw [hr]
      exact (hins q (advertising_sorted h hs) n).trans (if_pos rfl)
    · intro m hm
      rw [hr]
      exact (hins q (advertising_sorted h hs) m).trans (if_neg hm)
  | changed a b d kk ha =>
    obtain ⟨r, h1, h2⟩ := (advertising_append ..).1 h
    obtain ⟨n', k', h3, h4, h5⟩ := (advertising_cons ..).1 h2
    have hs1 := advertising_sorted h1 hs
    have hname := entryName_ofName hn ht (.node d kk)
    rw [hname] at h3
    injection h3 with h3
    subst h3
    obtain ⟨q', h6, h7⟩ := advertising_congr (n := n)
      (p' := { r with npl := (Npl.insert r.npl n "" (.fin (Dbl.roundNat k : Nat))).2 }) h5
      (Npl.insert_sorted hs1 ..) (Npl.insert_sorted hs1 ..) (by
        intro m hm
        unfold costOf
        dsimp only
        rw [Npl.get_insert_cost hs1, Npl.get_insert_cost hs1, if_neg hm, if_neg hm])
    refine ⟨q', (advertising_append ..).2 ⟨r, h1, (advertising_cons ..).2 ⟨n, k, entryName_ofName hn ht _, hpu, h6⟩⟩, ?_, h7⟩
    rw [advertising_keep h6 (Npl.insert_sorted hs1 ..) (hone a _ b rfl hname), hr]
    exact (hins r hs1 n).trans (if_pos rfl)

theorem advertising_filter {n : Name} {key : Text} (hkey : ∀ t, entryName (key, t) = some n) :
    ∀ {kids : List (Text × Tree)} {p q p' : Params}, (∀ y ∈ kids, entryName y = some n → y.1 = key) →
    Npl.Sorted p.npl → Npl.Sorted p'.npl → (∀ m, m ≠ n → costOf p'.npl m = costOf p.npl m) →
    advertising kids p = some q →
    ∃ q', advertising (kids.filter (fun x => !decide (x.1 = key))) p' = some q' ∧
      costOf q'.npl n = costOf p'.npl n ∧ ∀ m, m ≠ n → costOf q'.npl m = costOf q.npl m
  | [], p, q, p', _, hs, hs', hc, h => by
    injection h with h
    exact ⟨p', rfl, rfl, by rwa [← h]⟩
  | y :: kids, p, q, p', hk, hs, hs', hc, h => by
    obtain ⟨m, k, h1, h2, h3⟩ := (advertising_cons ..).1 h
    have hk' : ∀ z ∈ kids, entryName z = some n → z.1 = key := fun z hz => hk z (List.mem_cons_of_mem _ hz)
    by_cases hy : y.1 = key
    · rw [List.filter_cons_of_neg (by simp [hy])]
      have hm : m = n := by
        have := hkey y.2
        rw [← hy] at this
        rw [show (y.1, y.2) = y from rfl, h1] at this
        injection this
      refine advertising_filter hkey hk' (Npl.insert_sorted hs ..) hs' ?_ h3
      intro j hj
      rw [hc j hj]
      unfold costOf
      dsimp only
      rw [Npl.get_insert_cost hs, if_neg]
      rw [hm]; exact hj
    · rw [List.filter_cons_of_pos (by simp [hy])]
      have hm : m ≠ n := by
        rintro rfl
        exact hy (hk y (List.mem_cons_self ..) h1)
      obtain ⟨q', h4, h5, h6⟩ := advertising_filter hkey hk' (p' := { p' with npl := (Npl.insert p'.npl m "" (.fin (Dbl.roundNat k : Nat))).2 })
        (Npl.insert_sorted hs ..) (Npl.insert_sorted hs' ..) (by
          intro j hj
          unfold costOf
          dsimp only
          rw [Npl.get_insert_cost hs, Npl.get_insert_cost hs']
          split
          · rfl
          · exact hc j hj) h3
      refine ⟨q', (advertising_cons ..).2 ⟨m, k, h1, h2, h4⟩, ?_, h6⟩
      rw [h5]
      unfold costOf
      dsimp only
      rw [Npl.get_insert_cost hs', if_neg (Ne.symm hm)]

/-- C51, restart after saving, under the restrictions of `C51_saved_partial`, for a non-empty name of valid components that
the file names at most once and only in its own spelling: loading the saved file succeeds if loading the old one
did, gives p with cost c, the other prefixes with their old costs, and otherwise the same parameters. -/
theorem C51_restart_partial {c : LConf} {s : CmdState} {f : ConfFile} {pre post kids : List (Text × Tree)}
    (hs : s.file = some f) (hf : EditableFile f pre post kids) (n : Name) (k : Nat) (fid : Option Nat)
    (hk : k < 2 ^ 53) (hdot : '.' ∉ Uri.ofName n) (hnew : lineOf n k ∉ f.lines)
    (hn : n ≠ []) (ht : ∀ x ∈ n, 1 ≤ x.typ ∧ x.typ ≤ 65535)
    (hone : ∀ a y b, kids = a ++ y :: b → entryName y = some n → ∀ z ∈ b, entryName z ≠ some n)
    (hkey : ∀ y ∈ kids, entryName y = some n → y.1 = Uri.ofName n)
    {env : ConfEnv} {t : Tree} {p : Params} (hft : f.tree = some t) (hload : load env t = some p) :
    let x : Cmd := { via := .nlsr, verb := .advertise, name := n, cost := some k, flags := some 1, faceId := fid }
    ∃ f' t' l, (step c s (.cmd x)).file = some f' ∧ f'.tree = some t' ∧ load env t' = some { p with npl := l } ∧
      costOf l n = some (.fin (k : Nat)) ∧ ∀ m, m ≠ n → costOf l m = costOf p.npl m := by
  intro x
  obtain ⟨f', kids', h1, h2, h3, -⟩ := addOrDelete_add hf hdot hnew
  obtain ⟨e1, -⟩ := advertise_file c s x rfl rfl rfl hk
  have h1 : addOrDelete s.file x.name (x.cost.getD 0) true = (true, some f') := by rw [hs]; exact h1
  rw [h1] at e1
  obtain ⟨d, xd, hd⟩ := hf.tree
  obtain ⟨d', xd', hd'⟩ := h2.tree
  rw [hft] at hd
  injection hd with hd
  subst hd
  obtain ⟨a, ha, ⟨b, hb, hpb⟩, hl⟩ := load_advertising (d' := d') (x' := .node xd' kids') hf.pre hf.post hload
  have hsa : Npl.Sorted a.npl := by rw [ha]; exact List.Pairwise.nil
  obtain ⟨b', g1, g2, g3⟩ := advertising_put hn ht hk h3 hone hkey hsa hb
  refine ⟨f', _, b'.npl, e1, hd', hl b' g1, g2, ?_⟩
  rw [hpb]
  exact g3

/-- C51, restart after deleting, under the restrictions of `C51_deleted_partial`: loading the file succeeds if loading the
old one did, no longer gives p, and gives the other prefixes with their old costs. -/
theorem C51_restart_deleted_partial {c : LConf} {s : CmdState} {f : ConfFile} {pre post kids : List (Text × Tree)}
    (hs : s.file = some f) (hf : EditableFile f pre post kids) (n : Name) (fid : Option Nat)
    (hdot : '.' ∉ Uri.ofName n) (hline : "    ".toList ++ Uri.ofName n ++ " 0".toList ∈ f.lines)
    (hn : n ≠ []) (ht : ∀ x ∈ n, 1 ≤ x.typ ∧ x.typ ≤ 65535)
    (hkey : ∀ y ∈ kids, entryName y = some n → y.1 = Uri.ofName n)
    {env : ConfEnv} {t : Tree} {p : Params} (hft : f.tree = some t) (hload : load env t = some p) :
    let x : Cmd := { via := .nlsr, verb := .withdraw, name := n, flags := some 1, faceId := fid }
    ∃ f' t' l, (step c s (.cmd x)).file = some f' ∧ f'.tree = some t' ∧ load env t' = some { p with npl := l } ∧
      costOf l n = none ∧ ∀ m, m ≠ n → costOf l m = costOf p.npl m := by
  intro x
  obtain ⟨-, f', e1, h2⟩ := C51_deleted_partial (c := c) hs hf n fid hdot hline
  obtain ⟨d, xd, hd⟩ := hf.tree
  obtain ⟨d', xd', hd'⟩ := h2.tree
  rw [hft] at hd
  injection hd with hd
  subst hd
  obtain ⟨a, ha, ⟨b, hb, hpb⟩, hl⟩ := load_advertising (d' := d')
    (x' := .node xd' (kids.filter (fun y => !decide (y.1 = Uri.ofName n)))) hf.pre hf.post hload
  have hsa : Npl.Sorted a.npl := by rw [ha]; exact List.Pairwise.nil
  obtain ⟨b', g1, g2, g3⟩ := advertising_filter (entryName_ofName hn ht) hkey hsa hsa (fun m _ => rfl) hb
  refine ⟨f', _, b'.npl, e1, hd', hl b' g1, ?_, ?_⟩
  · rw [g2, ha]; rfl
  · rw [hpb]
    exact g3

/-! A prefix saved with cost 0 can be deleted again. -/

theorem token_uri (n : Name) : Tree.token (Uri.ofName n) = Uri.ofName n := by
  unfold Tree.token
  rw [if_neg]
  rintro (h | h)
  · unfold Uri.ofName at h
    split at h
    · cases h
    · rename_i h0
      cases n with
      | nil => exact h0 rfl
      | cons x xs => simp at h
  · obtain ⟨c, hc, h⟩ := List.any_eq_true.1 h
    have : Uri.inComp c = true ∨ c = '/' := ofName_chars n c hc
    simp only [List.contains_iff_mem] at h
    revert this
    have : ∀ c ∈ [' ', '\t', '{', '}', ';', '\n', '"'], ¬ (Uri.inComp c = true ∨ c = '/') := by decide
    exact this c h

theorem mem_linesAll {i : Nat} {key : Text} {t : Tree} : ∀ {l : List (Text × Tree)}, (key, t) ∈ l →
    ∀ x ∈ Tree.lines i key t, x ∈ Tree.linesAll i l
  | y :: l, h, x, hx => by
    rw [Tree.linesAll]
    rcases List.mem_cons.1 h with h | h
    · subst h
      exact List.mem_append_left _ hx
    · exact List.mem_append_right _ (mem_linesAll h x hx)

theorem saved_line {f : ConfFile} {pre post kids kids' : List (Text × Tree)} {n : Name}
    (hf : EditableFile f pre post kids') (hput : PutEntry (Uri.ofName n) (Uri.dec 0) kids kids')
    (hl : ∀ t, f.tree = some t → f.lines = t.fileLines) :
    "    ".toList ++ Uri.ofName n ++ " 0".toList ∈ f.lines := by
  obtain ⟨d, xd, ht⟩ := hf.tree
  rw [hl _ ht]
  have hmem : ∃ kk, (Uri.ofName n, Tree.node (Uri.dec 0) kk) ∈ kids' := by
    cases hput with
    | new l h => exact ⟨[], by simp⟩
    | changed a b d k h => exact ⟨k, by simp⟩
  obtain ⟨kk, hmem⟩ := hmem
  refine mem_linesAll (key := "advertising".toList) (t := .node xd kids') (by simp [Tree.kids]) _ ?_
  rw [Tree.lines]
  have hne : kids'.isEmpty = false := by
    cases kids' with
    | nil => cases hmem
    | cons y ys => rfl
  rw [hne]
  refine List.mem_cons_of_mem _ ?_
  rw [if_neg (by simp)]
  refine List.mem_append_left _ (List.mem_cons_of_mem _ (mem_linesAll hmem _ ?_))
  rw [Tree.lines, token_uri]
  refine List.mem_cons.2 (Or.inl ?_)
  have e : ∀ b, Tree.dataPart (Uri.dec 0) b = " 0".toList := by decide +kernel
  rw [e]
  rfl

/-- C51 for cost 0: saving p and then deleting it are both answered 205 and leave a file without p, with everything else as
before. -/
theorem C51_save_delete_partial {c : LConf} {s : CmdState} {f : ConfFile} {pre post kids : List (Text × Tree)}
    (hs : s.file = some f) (hf : EditableFile f pre post kids) (n : Name) (fid fid' : Option Nat)
    (hdot : '.' ∉ Uri.ofName n) (hnew : lineOf n 0 ∉ f.lines) :
    let x : Cmd := { via := .nlsr, verb := .advertise, name := n, cost := some 0, flags := some 1, faceId := fid }
    let y : Cmd := { via := .nlsr, verb := .withdraw, name := n, flags := some 1, faceId := fid' }
    codeOf c s x = some 205 ∧ codeOf c (step c s (.cmd x)) y = some 205 ∧
    ∃ f', (step c (step c s (.cmd x)) (.cmd y)).file = some f' ∧
      EditableFile f' pre post (kids.filter (fun z => !decide (z.1 = Uri.ofName n))) := by
  intro x y
  obtain ⟨f', kids', h1, h2, h3, h4⟩ := addOrDelete_add hf hdot hnew
  obtain ⟨e1, e2⟩ := advertise_file c s x rfl rfl rfl (show 0 < 2 ^ 53 by decide)
  have h1 : addOrDelete s.file x.name (x.cost.getD 0) true = (true, some f') := by rw [hs]; exact h1
  rw [h1] at e1 e2
  obtain ⟨g1, f'', g2, g3⟩ := C51_deleted_partial (c := c) e1 h2 n fid' hdot (saved_line h2 h3 h4)
  have hfil := (putEntry_spec h3).2
  refine ⟨e2, g1, f'', g2, ?_⟩
  have : ∀ l : List (Text × Tree), l.filter (fun z => !decide (z.1 = Uri.ofName n)) = l.filter (fun z => z.1 ≠ Uri.ofName n) := by
    intro l
    congr 1
    funext z
    simp
  rw [this, ← hfil, ← this]
  exact g3

/-! Cases. -/

/-- The configuration of a router that advertises /p with cost 7 and /q with cost 0, as the editor writes it. -/
def exFullTree : Tree := .node [] [exGeneral, exNeighbors, confSection "advertising" [("/p", "7"), ("/q", "0")]]

def exFullFile : ConfFile := { lines := exFullTree.fileLines, tree := some exFullTree }

def exFull : CmdState := init (exConf .off) none [] [(nm ["p"], .fin 7), (nm ["q"], .fin 0)] 0 (some exFullFile)

/-- The prefixes a restart with the file of `s` gives; `none`: the configuration is refused. -/
def restart (s : CmdState) : Option (List (Name × Option (Ext Rat))) := do
  let f ← s.file
  let t ← f.tree
  let p ← load exEnv t
  return p.npl.names.map (fun n => (n, costOf p.npl n))

theorem exFull_editable : EditableFile exFullFile [exGeneral, exNeighbors] [] [confLeaf "/p" "7", confLeaf "/q" "0"] where
  writable := rfl
  tree := ⟨[], [], rfl⟩
  pre := by decide
  post := nofun

/-- The hypotheses of the theorems above are met: saving /a with cost 10, giving /p another cost, and deleting /q. -/
example :
    exFull.file = some exFullFile ∧ '.' ∉ Uri.ofName (nm ["a"]) ∧ lineOf (nm ["a"]) 10 ∉ exFullFile.lines ∧
    "    ".toList ++ Uri.ofName (nm ["q"]) ++ " 0".toList ∈ exFullFile.lines ∧
    restart exFull = some [(nm ["p"], some (.fin 7)), (nm ["q"], some (.fin 0))] ∧
    restart (step (exConf .off) exFull (.cmd (exAdv "a" 10 true))) =
      some [(nm ["a"], some (.fin 10)), (nm ["p"], some (.fin 7)), (nm ["q"], some (.fin 0))] ∧
    restart (step (exConf .off) exFull (.cmd (exAdv "p" 20 true))) =
      some [(nm ["p"], some (.fin 20)), (nm ["q"], some (.fin 0))] ∧
    restart (step (exConf .off) exFull (.cmd (exWdr "q" true))) = some [(nm ["p"], some (.fin 7))] := by
  refine ⟨rfl, ?_, ?_, ?_, ?_, ?_, ?_, ?_⟩ <;> decide +kernel

/-- C51 fails for deleting: /a saved with cost 10 cannot be deleted.  The command is answered 500, the prefix stays in the
file, and the router advertises it again after a restart. -/
theorem C51_violated_delete :
    let s := step (exConf .off) exFull (.cmd (exAdv "a" 10 true))
    codeOf (exConf .off) exFull (exAdv "a" 10 true) = some 205 ∧
    codeOf (exConf .off) s (exWdr "a" true) = some 500 ∧
    restart (step (exConf .off) s (.cmd (exWdr "a" true))) =
      some [(nm ["a"], some (.fin 10)), (nm ["p"], some (.fin 7)), (nm ["q"], some (.fin 0))] := by
  refine ⟨?_, ?_, ?_⟩ <;> decide +kernel

/-- C51 fails for names with a period: /a.b saved with cost 10 is answered 205, but it is written as an entry `.b`
inside an entry `/a` without cost; the configuration is refused at the next start. -/
theorem C51_violated_period :
    codeOf (exConf .off) exFull (exAdv "a.b" 10 true) = some 205 ∧
    restart (step (exConf .off) exFull (.cmd (exAdv "a.b" 10 true))) = none ∧ (restart exFull).isSome := by
  refine ⟨?_, ?_, ?_⟩ <;> decide +kernel

/-- C51 fails for large costs: 2^53 + 1 is saved as 2^53. -/
theorem C51_violated_cost :
    codeOf (exConf .off) exFull (exAdv "a" (2 ^ 53 + 1) true) = some 205 ∧
    restart (step (exConf .off) exFull (.cmd (exAdv "a" (2 ^ 53 + 1) true))) =
      some [(nm ["a"], some (.fin (2 ^ 53))), (nm ["p"], some (.fin 7)), (nm ["q"], some (.fin 0))] := by
  refine ⟨?_, ?_⟩ <;> decide +kernel

/-- The cost 2^64 - 1, which a command may carry, makes the daemon convert 2^64 to `uint64_t`: no defined result. -/
theorem C51_violated_undefined :
    (step (exConf .off) exFull (.cmd (exAdv "a" (2 ^ 64 - 1) true))).undef = true := by decide +kernel

end Nlsr
