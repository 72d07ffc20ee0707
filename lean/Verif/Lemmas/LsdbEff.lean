import Verif.Lemmas.LsdbStep
/- What each LSDB function leaves alone, and what it adds to the log. -/
namespace Nlsr
namespace Lsdb

/-- Everything but the stored LSAs, their timers and the log is unchanged. -/
structure Same (s s' : Lsdb) : Prop where
  now : s'.now = s.now
  sys : s'.sys = s.sys
  seqs : s'.seqs = s.seqs
  highest : s'.highest = s.highest
  fetches : s'.fetches = s.fetches
  retries : s'.retries = s.retries
  buildFlag : s'.buildFlag = s.buildFlag
  buildDue : s'.buildDue = s.buildDue
  buildCount : s'.buildCount = s.buildCount
  adjs : s'.adjs = s.adjs
  npl : s'.npl = s.npl
  fifo : s'.fifo = s.fifo
  storage : s'.storage = s.storage

theorem Same.refl (s : Lsdb) : Same s s := ⟨rfl, rfl, rfl, rfl, rfl, rfl, rfl, rfl, rfl, rfl, rfl, rfl, rfl⟩

theorem Same.trans {a b d : Lsdb} (h : Same a b) (h' : Same b d) : Same a d :=
  ⟨h'.now.trans h.now, h'.sys.trans h.sys, h'.seqs.trans h.seqs, h'.highest.trans h.highest,
   h'.fetches.trans h.fetches, h'.retries.trans h.retries, h'.buildFlag.trans h.buildFlag,
   h'.buildDue.trans h.buildDue, h'.buildCount.trans h.buildCount, h'.adjs.trans h.adjs, h'.npl.trans h.npl,
   h'.fifo.trans h.fifo, h'.storage.trans h.storage⟩

/-- Only signals are logged. -/
structure Sig (s s' : Lsdb) : Prop extends Same s s' where
  log : ∃ outs, s'.log = s.log ++ outs ∧ ∀ o ∈ outs, Out.isSignal o = true

theorem Sig.refl (s : Lsdb) : Sig s s := ⟨Same.refl s, [], by simp, by simp⟩

theorem installLsa_sig (c : LConf) (s : Lsdb) (l : Lsa) : Sig s (installLsa c s l) := by
  have hc := install_cases c s l
  generalize installLsa c s l = s' at hc
  cases hc with
  | rejected o hf h => exact Sig.refl _
  | fresh hf =>
    refine ⟨⟨rfl, rfl, rfl, rfl, rfl, rfl, rfl, rfl, rfl, rfl, rfl, rfl, rfl⟩, _, rfl, ?_⟩
    simp [Out.isSignal]
  | newer o hf h =>
    unfold installUpdate
    dsimp only
    split
    · refine ⟨⟨rfl, rfl, rfl, rfl, rfl, rfl, rfl, rfl, rfl, rfl, rfl, rfl, rfl⟩, _, rfl, ?_⟩
      simp [Out.isSignal]
    · exact ⟨⟨rfl, rfl, rfl, rfl, rfl, rfl, rfl, rfl, rfl, rfl, rfl, rfl, rfl⟩, [], by simp [reschedule], by simp⟩

theorem removeLsa_sig (s : Lsdb) (r : Name) (t : LsaType) : Sig s (removeLsa s r t) := by
  unfold removeLsa
  split
  · exact Sig.refl _
  · refine ⟨⟨rfl, rfl, rfl, rfl, rfl, rfl, rfl, rfl, rfl, rfl, rfl, rfl, rfl⟩, _, rfl, ?_⟩
    simp [Out.isSignal]

/-- `announce` as one record update. -/
theorem announce_eq (s : Lsdb) (t : LsaType) (b : Bool) (ht : t ≠ .base) :
    announce s t b = { s with
      seqs := s.seqs.set t (inc64 (s.seqs.get t))
      log := s.log ++ .persist (s.seqs.set t (inc64 (s.seqs.get t))) ::
        (if b then [.publish t (inc64 (s.seqs.get t))] else []) } := by
  unfold announce persist publish emit
  cases b with
  | false => simp
  | true =>
    have : (s.seqs.set t (inc64 (s.seqs.get t))).get t = inc64 (s.seqs.get t) := by
      cases t <;> simp_all [Seqs.set, Seqs.get]
    simp [this]

/-- What is logged: only outputs satisfying `P`. -/
def Logs (P : Out → Prop) (s s' : Lsdb) : Prop := ∃ outs, s'.log = s.log ++ outs ∧ ∀ o ∈ outs, P o

theorem Logs.refl {P : Out → Prop} (s : Lsdb) : Logs P s s := ⟨[], by simp, by simp⟩

theorem Logs.trans {P : Out → Prop} {a b d : Lsdb} (h : Logs P a b) (h' : Logs P b d) : Logs P a d := by
  obtain ⟨o, h1, h2⟩ := h
  obtain ⟨o', h3, h4⟩ := h'
  refine ⟨o ++ o', by rw [h3, h1, List.append_assoc], ?_⟩
  intro x hx
  rcases List.mem_append.1 hx with hx | hx
  · exact h2 x hx
  · exact h4 x hx

theorem Logs.mono {P Q : Out → Prop} {s s' : Lsdb} (h : Logs P s s') (hpq : ∀ o, P o → Q o) : Logs Q s s' := by
  obtain ⟨o, h1, h2⟩ := h
  exact ⟨o, h1, fun x hx => hpq x (h2 x hx)⟩

theorem Logs.emit {P : Out → Prop} (s : Lsdb) (o : Out) (h : P o) : Logs P s (s.emit o) :=
  ⟨[o], rfl, by simpa using h⟩

theorem Sig.logs {s s' : Lsdb} (h : Sig s s') {P : Out → Prop} (hp : ∀ o, Out.isSignal o = true → P o) :
    Logs P s s' := by
  obtain ⟨o, h1, h2⟩ := h.log
  exact ⟨o, h1, fun x hx => hp x (h2 x hx)⟩

end Lsdb
end Nlsr
