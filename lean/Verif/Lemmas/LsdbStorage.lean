import Verif.Lemmas.LsdbKeep
import Verif.Props.LsdbInterest
/- What changes the segments of other routers' LSAs that an LSDB keeps. -/
namespace Nlsr
namespace Lsdb

theorem announce_storage (s : Lsdb) (t : LsaType) (b : Bool) : (announce s t b).storage = s.storage := by
  unfold announce
  dsimp only
  split <;> rfl

theorem installLsa_storage (c : LConf) (s : Lsdb) (l : Lsa) : (installLsa c s l).storage = s.storage :=
  (installLsa_sig c s l).storage

theorem buildName_storage (c : LConf) (s : Lsdb) : (buildName c s).storage = s.storage :=
  (installLsa_storage c _ _).trans (announce_storage s _ _)
theorem buildCoord_storage (c : LConf) (s : Lsdb) : (buildCoord c s).storage = s.storage :=
  (installLsa_storage c _ _).trans (announce_storage s _ _)
theorem buildAdj_storage (c : LConf) (s : Lsdb) : (buildAdj c s).storage = s.storage :=
  (installLsa_storage c _ _).trans (announce_storage s _ _)

theorem ownUpdate_storage (c : LConf) (s : Lsdb) (t : LsaType) (k : Nat) : (ownUpdate c s t k).storage = s.storage := by
  unfold ownUpdate
  split
  · exact buildName_storage c _
  · split
    · exact buildAdj_storage c _
    · rfl
  · split
    · exact buildCoord_storage c _
    · rfl
  · rfl

theorem fire_storage (c : LConf) (s : Lsdb) (eid : Nat) : (fire c s eid).storage = s.storage := by
  unfold fire
  split
  · rfl
  · split
    · rfl
    · split
      · rfl
      · unfold expireOrRefresh
        split
        · rfl
        · split
          · split
            · rfl
            · exact (removeLsa_sig _ _ _).storage
          · rfl

theorem noteSeq_storage {s s1 : Lsdb} {n : Name} {k : Nat} (h : s.noteSeq n k = some s1) : s1.storage = s.storage := by
  unfold noteSeq at h
  split at h
  · cases h; rfl
  · split at h
    · cases h; rfl
    · split at h
      · cases h
      · cases h; rfl

theorem expressInterest_storage (s : Lsdb) (n : Name) (k d : Nat) : (expressInterest s n k d).storage = s.storage := by
  unfold expressInterest
  split
  · rfl
  · rename_i s1 h
    exact (noteSeq_storage h :)

theorem sync_storage (c : LConf) (s : Lsdb) (n : Name) (k : Nat) : (sync c s n k).storage = s.storage := by
  unfold sync
  split
  · unfold processUpdate
    split
    · split
      · exact ownUpdate_storage c s _ _
      · rfl
    · split
      · split
        · rfl
        · exact expressInterest_storage _ _ _ _
      · rfl
  · rfl

theorem afterFetch_storage (c : LConf) (s : Lsdb) (f : Fetch) (p : Option Lsa) : (afterFetch c s f p).storage = s.storage := by
  unfold afterFetch
  split
  · rfl
  · rename_i s1 h
    rw [← noteSeq_storage h]
    dsimp only
    split
    · rfl
    · split
      · rfl
      · unfold installFetched
        split
        · rfl
        · split
          · exact installLsa_storage c _ _
          · rfl

theorem processStripped_storage (c : LConf) (s : Lsdb) (n i : Name) (v : Nat) : (processStripped c s n i v).storage = s.storage := by
  unfold processStripped
  split
  · split
    · split
      · rfl
      · split
        · rfl
        · unfold replyOwn
          split
          · rfl
          · split
            · dsimp only
              split <;> rfl
            · rfl
    · rfl
  · split <;> rfl

/-- What a completed fetch takes out: the segments under the number before. -/
def outdated (f : Fetch) : Name := f.lsaName ++ [Comp.number ((f.seq + 18446744073709551615) % 18446744073709551616)]

/-- The segments kept after an operation. -/
def storageAfter (s : Lsdb) : Op → List Name
  | .segment n => s.storage ++ [n]
  | .segmentGone n => s.storage.filter (fun m => !Name.isPrefixOf n m)
  | .fetched i _ => match s.fetches[i]? with
    | some f => s.storage.filter (fun m => !Name.isPrefixOf (outdated f) m)
    | none => s.storage
  | _ => s.storage

theorem storage_step (c : LConf) (s : Lsdb) (op : Op) :
    (step c s op).storage = storageAfter s op := by
  cases op with
  | clock dt sys => rfl
  | setAdjs l => rfl
  | setNpl l => rfl
  | buildName => exact buildName_storage c s
  | scheduleBuild =>
    show (scheduleBuild c s).storage = _
    unfold scheduleBuild
    dsimp only
    split <;> rfl
  | buildTimer =>
    show (buildTimer c s).storage = _
    unfold buildTimer
    split
    · rfl
    · split
      · rfl
      · unfold buildAdjLsa
        dsimp only
        split
        · unfold buildOrRemove
          split
          · dsimp only
            split
            · exact buildAdj_storage c _
            · exact (removeLsa_sig _ _ _).storage
          · rfl
        · rfl
  | timer eid => exact fire_storage c s eid
  | sync n k => exact sync_storage c s n _
  | fetched i p =>
    show (fetched c s i p).storage = _
    unfold fetched storageAfter
    dsimp only
    cases s.fetches[i]? with
    | none => rfl
    | some f => exact afterFetch_storage c _ _ _
  | fetchError i t =>
    show (fetchError c s i t).storage = _
    unfold fetchError fetchFailed
    split
    · rfl
    · split <;> rfl
  | retryTimer i =>
    show (retryTimer s i).storage = _
    unfold retryTimer
    split
    · rfl
    · split
      · rfl
      · exact expressInterest_storage _ _ _ _
  | segment n => rfl
  | segmentGone n => rfl
  | interest n v =>
    show (if n.length ≤ maxComponents then processInterest c s n v else s).storage = _
    split
    · unfold processInterest
      split
      · split
        · rfl
        · split
          · split
            · rfl
            · exact processStripped_storage ..
          · exact processStripped_storage ..
      · rfl
    · rfl
  | fifoGone n => rfl

end Lsdb
end Nlsr
