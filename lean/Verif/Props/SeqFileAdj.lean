import Verif.Props.SeqFile
/- C96 for ADJACENCY numbers, with the assumption of C39 (no sync report about the router itself is out of date). -/
namespace Nlsr.SeqFile
open Lsdb

/-- Which reports are out of date depends on the announced numbers only. -/
theorem freshRun_congr {c : LConf} {p q : List Out} (h : published .adjacency p = published .adjacency q) :
    ∀ (ops : List Op) (s : Lsdb), FreshRun c p s ops → FreshRun c q s ops
  | [], _, _ => trivial
  | op :: ops, s, ⟨h1, h2, h3⟩ => by
    refine ⟨?_, h2, freshRun_congr h ops _ h3⟩
    intro u k last e1 e2 e3 e4 n hn
    refine h1 u k last e1 e2 e3 e4 n ?_
    rw [published_append] at hn ⊢
    rw [h]
    exact hn

/-- No sync report about the router itself is out of date, in any of the lives: it gives no number below one that was announced
before, and the router's own adjacency LSA is not fetched (as `FreshSessions`, with the files as text). -/
def FileFresh (c : LConf) : List Out → Files → List Life → Prop
  | _, _, [] => True
  | past, f, l :: ls => FreshRun c past (Lsdb.init c f.seqs l.σ.adjs l.σ.npl l.σ.sys) l.σ.ops ∧
      FileFresh c (past ++ outs (l.deeds c f)) (filesAfter f (l.deeds c f)) ls

theorem refines_fresh (c : LConf) : ∀ (ls : List Life) (f : Files) (past past' : List Out),
    published .adjacency past = published .adjacency past' → (∀ l ∈ ls, 93 ≤ l.room) →
    FileNoWrap c .adjacency f ls → FileFresh c past f ls →
    ∃ σs, published .adjacency (fileHistory c f ls) = published .adjacency (history c f.seqs σs) ∧ NoWrap c .adjacency f.seqs σs ∧
      FreshSessions c past' f.seqs σs
  | [], f, _, _, _, _, _, _ => ⟨[], rfl, trivial, trivial⟩
  | l :: ls, f, past, past', hp, hr, hw, hf => by
    obtain ⟨w1, w2, w3⟩ := hw
    obtain ⟨f1, f2⟩ := hf
    have hreach : Reachable c (run c (Lsdb.init c f.seqs l.σ.adjs l.σ.npl l.σ.sys) l.σ.ops) :=
      ⟨f.seqs, l.σ.adjs, l.σ.npl, l.σ.sys, l.σ.ops, rfl⟩
    obtain ⟨k', h1, h2⟩ := deeds_take (hr l (by simp)) .adjacency (l.σ.full c f.seqs) (persisted_fits hreach).2 l.σ.cut f
    have h1' : published .adjacency (outs (l.deeds c f)) = published .adjacency (({ l.σ with cut := k' } : Session).log c f.seqs) := h1
    have h2' : (filesAfter f (l.deeds c f)).seqs = diskAfter f.seqs (({ l.σ with cut := k' } : Session).log c f.seqs) := h2
    obtain ⟨σs, h3, h4, h5⟩ := refines_fresh c ls (filesAfter f (l.deeds c f)) (past ++ outs (l.deeds c f))
      (past' ++ ({ l.σ with cut := k' } : Session).log c f.seqs) (by rw [published_append, published_append, hp, h1'])
      (fun x hx => hr x (List.mem_cons_of_mem _ hx)) w3 f2
    rw [h2'] at h3 h4 h5
    refine ⟨{ l.σ with cut := k' } :: σs, ?_, ⟨w1, w2, h4⟩, freshRun_congr hp _ _ f1, h5⟩
    show published .adjacency (outs (l.deeds c f) ++ _) = published .adjacency (_ ++ _)
    rw [published_append, published_append, h3, h1']

/-- Killed at any step of writing the state file, any number of times, and started again from the files it finds, the
router never announces an ADJACENCY number that is not above all those it announced before, with hyperbolic routing off and if no
sync report is out of date (`C39_violated_stale_report` shows that the latter is needed). -/
theorem C96_adjacency_partial (c : LConf) (hm : c.hyp = .off) (f : Files) (ls : List Life) (hroom : ∀ l ∈ ls, 93 ≤ l.room)
    (hw : FileNoWrap c .adjacency f ls) (hf : FileFresh c [] f ls) :
    (published .adjacency (fileHistory c f ls)).Pairwise (· < ·) := by
  obtain ⟨σs, h1, h2, h3⟩ := refines_fresh c ls f [] [] rfl hroom hw hf
  rw [h1]
  exact C39_adjacency_partial c hm f.seqs σs h2 h3

/-- Three lives, the second killed in the middle of writing the file. -/
def exLives : List Life :=
  [⟨exSession exBuild, 93⟩, ⟨{ exSession exBuild with cut := 60 }, 93⟩, ⟨exSession exBuild, 93⟩]

theorem freshRun_noSync {c : LConf} {past : List Out} : ∀ (ops : List Op) (s : Lsdb),
    (∀ op ∈ ops, (∀ u k, op ≠ .sync u k) ∧ ∀ i l, op ≠ .fetched i l) → FreshRun c past s ops
  | [], _, _ => trivial
  | op :: ops, s, h => ⟨fun u k _ e => absurd e ((h op (by simp)).1 u k), fun i l e => absurd e ((h op (by simp)).2 i (some l)),
      freshRun_noSync ops _ (fun o ho => h o (List.mem_cons_of_mem _ ho))⟩

example : (∀ l ∈ exLives, 93 ≤ l.room) ∧ FileNoWrap (exConf .off) .adjacency {} exLives ∧ FileFresh (exConf .off) [] {} exLives ∧
    published .adjacency (fileHistory (exConf .off) {} exLives) = [1, 22] := by
  have hb : ∀ op ∈ exBuild, (∀ u k, op ≠ Op.sync u k) ∧ ∀ i l, op ≠ Op.fetched i l := by
    simp [exBuild]
  refine ⟨by decide +kernel, ⟨?_, ?_, ?_, ?_, ?_, ?_, trivial⟩,
    ⟨freshRun_noSync _ _ hb, freshRun_noSync _ _ hb, freshRun_noSync _ _ hb, trivial⟩, ?_⟩ <;> decide +kernel

end Nlsr.SeqFile
