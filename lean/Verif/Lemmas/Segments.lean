import Verif.Model.Segments
import Verif.Lemmas.Net
/- Segments: pieces make up the whole; what the packets of a router are named and carry; the fetcher. -/
namespace Nlsr
namespace Segments

theorem pieces_take (b : List UInt8) (n : Nat) : (List.range n).flatMap (piece b) = b.take (n * size) := by
  induction n with
  | zero => simp
  | succ n ih =>
    rw [List.range_succ, List.flatMap_append, ih, List.flatMap_singleton, Nat.succ_mul, List.take_add]
    rfl

theorem count_pos (b : List UInt8) : 0 < count b := by
  unfold count
  split
  · exact Nat.one_pos
  · rename_i h
    have : 0 < b.length := List.length_pos_iff.2 (by intro e; exact h (by simp [e]))
    exact Nat.div_pos (by unfold size; omega) (by decide)

theorem count_mul (b : List UInt8) : b.length ≤ count b * size := by
  unfold count
  split
  · rename_i h
    simp at h; subst h; simp
  · have := Nat.div_add_mod (b.length + size - 1) size
    have h2 := Nat.mod_lt (b.length + size - 1) (show 0 < size by decide)
    have h3 : size = 4400 := rfl
    generalize (b.length + size - 1) / size = q at *
    rw [Nat.mul_comm] at this
    omega

/-- The pieces of an encoding, put together. -/
theorem pieces_all (b : List UInt8) : (List.range (count b)).flatMap (piece b) = b := by
  rw [pieces_take]
  exact List.take_of_length_le (count_mul b)

open Lsdb

/-- A segment of the store: named after an interest, a version and its number, and one of the last hundred of its LSA. -/
structure Stored (c : LConf) (d : Seg) : Prop where
  named : ∃ n v, d.name = segName n v d.idx
  lt : d.idx < c.segments d.lsa
  late : c.segments d.lsa ≤ d.idx + 100
  exact : Exact c d

/-- A segment that was sent: from the store, or the one the interest's name asks for. -/
structure Sent (c : LConf) (d : Seg) : Prop where
  named : ∃ n v, d.name = segName n v d.idx ∧ (c.segments d.lsa ≤ d.idx + 100 ∨ d.idx = segWanted n)
  lt : d.idx < c.segments d.lsa
  exact : Exact c d

theorem Stored.sent {c : LConf} {d : Seg} (h : Stored c d) : Sent c d := by
  obtain ⟨n, v, e⟩ := h.named
  exact ⟨⟨n, v, e, Or.inl h.late⟩, h.lt, h.exact⟩

theorem mem_insert {c : LConf} {l : List Seg} {n : Name} {v : Nat} {x : Lsa} {d : Seg}
    (h : d ∈ fifoInsert l ((List.range (c.segments x)).map (fun i => (⟨segName n v i, x, i⟩ : Seg)))) :
    d ∈ l ∨ ∃ i, d = ⟨segName n v i, x, i⟩ ∧ i < c.segments x ∧ c.segments x ≤ i + 100 := by
  unfold fifoInsert at h
  rw [List.drop_append] at h
  rcases List.mem_append.1 h with h | h
  · exact Or.inl (List.mem_of_mem_drop h)
  · right
    rw [← List.map_drop] at h
    obtain ⟨i, hi, rfl⟩ := List.mem_map.1 h
    obtain ⟨j, hj, e⟩ := List.mem_iff_getElem.1 hi
    rw [List.getElem_drop, List.getElem_range] at e
    have h2 : i < c.segments x := by
      have := List.mem_of_mem_drop hi
      exact List.mem_range.1 this
    refine ⟨i, rfl, h2, ?_⟩
    simp only [List.length_append, List.length_map, List.length_range] at e
    omega

/-- One step: what comes into the store, and what is sent. -/
theorem named_step {c : LConf} (hnet : Comp.str "LSA" ∉ c.names.network) (s : Lsdb) (op : Op) :
    (∀ d ∈ (step c s op).fifo, d ∈ s.fifo ∨ Stored c d) ∧
    ∃ outs, (step c s op).log = s.log ++ outs ∧ ∀ d, .data d ∈ outs → d ∈ s.fifo ∨ Sent c d := by
  have quiet : ∀ s' : Lsdb, s'.fifo = s.fifo → Logs (fun o => Out.isReply o = false) s s' →
      (∀ d ∈ s'.fifo, d ∈ s.fifo ∨ Stored c d) ∧
      ∃ outs, s'.log = s.log ++ outs ∧ ∀ d, .data d ∈ outs → d ∈ s.fifo ∨ Sent c d := by
    intro s' hf hl
    obtain ⟨outs, h1, h2⟩ := hl
    refine ⟨fun d hd => Or.inl (hf ▸ hd), outs, h1, fun d hd => ?_⟩
    have := h2 _ hd
    cases this
  have still : ∀ s' : Lsdb, s'.fifo = s.fifo → s'.log = s.log →
      (∀ d ∈ s'.fifo, d ∈ s.fifo ∨ Stored c d) ∧
      ∃ outs, s'.log = s.log ++ outs ∧ ∀ d, .data d ∈ outs → d ∈ s.fifo ∨ Sent c d :=
    fun s' hf hl => quiet s' hf ⟨[], by simp [hl], by simp⟩
  by_cases hs : Op.special op = false
  · have hk := step_keep c s op hs
    exact quiet _ hk.fifo hk.log
  · cases op with
    | setAdjs l => exact still _ rfl rfl
    | setNpl l => exact still _ rfl rfl
    | scheduleBuild =>
      have : (scheduleBuild c s).fifo = s.fifo ∧ (scheduleBuild c s).log = s.log := by
        unfold scheduleBuild
        dsimp only
        split <;> exact ⟨rfl, rfl⟩
      exact still _ this.1 this.2
    | buildTimer =>
      show (∀ d ∈ (buildTimer c s).fifo, _) ∧ ∃ outs, (buildTimer c s).log = _ ∧ _
      unfold buildTimer
      split
      · exact still _ rfl rfl
      · split
        · exact still _ rfl rfl
        · have := buildAdjLsa_spec c s
          exact quiet _ this.2.2.1 this.2.2.2.1
    | fifoGone n =>
      exact ⟨fun d hd => Or.inl (List.mem_filter.1 hd).1, [], by simp [step], by simp⟩
    | interest n v =>
      rcases step_interest_cases c s n v with ⟨h1, h2⟩ | ⟨d, hd, -, -, h1, h2⟩ | ⟨iname, hl, hp, hpre, -, he⟩
      · exact still _ h1 h2
      · refine ⟨fun x hx => Or.inl (h1 ▸ hx), _, h2, ?_⟩
        intro x hx
        rw [List.mem_singleton] at hx
        cases hx
        exact Or.inl hd
      · rw [he]
        have hlen : iname.length < 2 ^ 62 :=
          Nat.lt_of_le_of_lt (Nat.le_trans hpre.length_le hl) (by decide)
        rcases processStripped_cases c s n iname v hnet hlen hp hpre with ⟨h1, h2⟩ | ⟨o, ho, hr, hex, h1, h2⟩
        · rcases h2 with h2 | ⟨last, -, -, -, h2⟩ | ⟨m, -, -, h2⟩
          · exact still _ h1 h2
          · exact ⟨fun x hx => Or.inl (h1 ▸ hx), _, h2, by simp⟩
          · exact ⟨fun x hx => Or.inl (h1 ▸ hx), _, h2, by simp⟩
        · refine ⟨fun d hd => ?_, ?_⟩
          · rw [h1] at hd
            rcases mem_insert hd with h3 | ⟨i, rfl, h3, h4⟩
            · exact Or.inl h3
            · exact Or.inr ⟨⟨n, v, rfl⟩, h3, h4, hex i⟩
          · rcases h2 with h2 | ⟨i, ⟨hi1, hi2⟩, h2⟩
            · exact ⟨[], by simp [h2], by simp⟩
            · refine ⟨_, h2, fun d hd => ?_⟩
              rw [List.mem_singleton] at hd
              cases hd
              exact Or.inr ⟨⟨n, v, rfl, Or.inr hi1⟩, hi2, hex i⟩
    | _ => exact absurd rfl hs

theorem init_no_data (c : LConf) (disk : Option Seqs) (adjs : AdjacencyList) (npl : List PrefixInfo) (sys : Int) (d : Seg) :
    .data d ∉ (init c disk adjs npl sys).log := by
  obtain ⟨outs, h1, h2⟩ := (init_keep c disk adjs npl sys).log
  rw [h1]
  intro h
  rcases List.mem_append.1 h with h | h
  · cases h
  · have := h2 _ h; cases this

theorem all_named {c : LConf} (hnet : Comp.str "LSA" ∉ c.names.network) {s : Lsdb} (h : Lsdb.Reachable c s) :
    (∀ d ∈ s.fifo, Stored c d) ∧ ∀ d, .data d ∈ s.log → Sent c d := by
  refine Reachable.induct_step (P := fun s => (∀ d ∈ s.fifo, Stored c d) ∧ ∀ d, .data d ∈ s.log → Sent c d) ?_ ?_ h
  · intro disk adjs npl sys
    refine ⟨fun d hd => ?_, fun d hd => absurd hd (init_no_data c disk adjs npl sys d)⟩
    rw [(init_keep c disk adjs npl sys).fifo] at hd
    cases hd
  · intro s op _ ih
    obtain ⟨h1, outs, h2, h3⟩ := named_step hnet s op
    refine ⟨fun d hd => (h1 d hd).elim (ih.1 d) id, fun d hd => ?_⟩
    rw [h2] at hd
    rcases List.mem_append.1 hd with hd | hd
    · exact ih.2 d hd
    · exact (h3 d hd).elim (fun h => (ih.1 d h).sent) id

/-- The same for a router that is stopped in the middle of an event or of a start. -/
theorem cut_named {ι : Type} [DecidableEq ι] {c : ι → RConf} (hs : Net.Sane c) {N : Net.State ι} (h : Net.NInv c N) {i : ι} {d : Seg}
    (kill : Net.Kill) (hd : .data d ∈ kill.outs (c i) (N i)) : Sent (c i).lsdb d := by
  induction kill with
  | idle => cases hd
  | event op k =>
    have hd := List.mem_of_mem_drop (List.mem_of_mem_take hd)
    have hr : Router.Reachable (c i) (Router.step (c i) (N i).r op) := (h.trusted i).reachable.step op
    exact (all_named (hs.lsa i) hr.all.base.core.lsdb).2 d hd
  | start b adjs npl sys k ih =>
    rcases List.mem_append.1 hd with h1 | h1
    · exact ih h1
    · have h1 := List.mem_of_mem_take h1
      rw [(Router.init_mild _ _ adjs npl sys).log] at h1
      exact absurd h1 (init_no_data _ _ adjs npl sys d)

/-- The same over all lives of the routers of a network. -/
theorem net_named {ι : Type} [DecidableEq ι] {c : ι → RConf} (hs : Net.Sane c) {N : Net.State ι} (h : Net.Reachable c N) (i : ι) (d : Seg)
    (hd : .data d ∈ (N i).log) : Sent (c i).lsdb d := by
  have live : ∀ {N : Net.State ι}, Net.Reachable c N → ∀ i d, .data d ∈ (N i).r.core.lsdb.log → Sent (c i).lsdb d :=
    fun h i d hd => (all_named (hs.lsa i) ((h.ninv hs).node i).reach).2 d hd
  have past : ∀ {N : Net.State ι}, Net.Reachable c N → ∀ i d, .data d ∈ (N i).past → Sent (c i).lsdb d := by
    intro N h
    induction h with
    | start => intro i d hd; cases hd
    | @step N' h op ha hr ih =>
      intro i d hd
      cases op with
      | act j op =>
        refine ih i d ?_
        by_cases e : i = j
        · subst e; simpa [Net.step, Net.set] using hd
        · simpa [Net.step, Net.set, e] using hd
      | restart j adjs npl sys kill =>
        by_cases e : i = j
        · subst e
          have hd' : .data d ∈ (N' i).past ++ (N' i).r.core.lsdb.log ++ kill.outs (c i) (N' i) := by
            simpa only [Net.step, Net.set, if_pos, Site.log] using hd
          rcases List.mem_append.1 hd' with h1 | h1
          · rcases List.mem_append.1 h1 with h1 | h1
            · exact ih i d h1
            · exact live h i d h1
          · exact cut_named hs (h.ninv hs) kill h1
        · exact ih i d (by simpa [Net.step, Net.set, e] using hd)
  rcases List.mem_append.1 hd with h1 | h1
  · exact past h i d h1
  · exact live h i d h1

end Segments
end Nlsr
