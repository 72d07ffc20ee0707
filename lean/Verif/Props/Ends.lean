import Verif.Props.LsdbInterest
import Verif.Model.Router
/- C34 for the whole daemon. -/
namespace Nlsr
namespace Router

/-- C34 fails for the whole daemon: one interest under the name of the router's own LSAs, from anybody, that does not end in
a number ends it in any state.  Nothing that comes afterwards has any effect: no hello is answered, no LSA sent, no route
registered.  src/lsdb.cpp:247, src/main.cpp:85-91. -/
theorem C34_violated_daemon (c : RConf) (hnet : Comp.str "LSA" ∉ c.lsdb.names.network) (s : Router) (t : LsaType) (last : Comp)
    (v : Nat) (hlast : last.toNumber = none) (hlen : (c.lsdb.names.lsaUserPrefix t ++ [last]).length ≤ 8800)
    (hlive : s.ended = false) (ops : List Op) :
    let s' := Router.step c s (.core (.lsdb (.interest (c.lsdb.names.lsaUserPrefix t ++ [last]) v)))
    s'.nbr = s.nbr ∧ s'.fib = s.fib ∧ s'.core.npt = s.core.npt ∧ s'.core.rt = s.core.rt ∧
      ops.foldl (Router.step c) s' = s' := by
  have h := C34_violated c.lsdb s.core.lsdb t last v hlast hnet hlen
  have e : Router.step c s (.core (.lsdb (.interest (c.lsdb.names.lsaUserPrefix t ++ [last]) v))) =
      { s with core := ⟨Lsdb.step c.lsdb s.core.lsdb (.interest (c.lsdb.names.lsaUserPrefix t ++ [last]) v), s.core.rt, s.core.npt⟩ } := by
    unfold Router.step
    rw [hlive]
    show coreStep c s (.lsdb (.interest (c.lsdb.names.lsaUserPrefix t ++ [last]) v)) = _
    have e1 : Core.step c.core s.core (.lsdb (.interest (c.lsdb.names.lsaUserPrefix t ++ [last]) v)) =
        ⟨Lsdb.step c.lsdb s.core.lsdb (.interest (c.lsdb.names.lsaUserPrefix t ++ [last]) v), s.core.rt, s.core.npt⟩ := by
      show Core.lsdbStep c.core s.core _ = _
      unfold Core.lsdbStep
      show Core.mk (Lsdb.step c.lsdb s.core.lsdb _) _ _ = _
      rw [show (Lsdb.step c.core.lsdb s.core.lsdb (.interest (c.lsdb.names.lsaUserPrefix t ++ [last]) v)).log =
        s.core.lsdb.log ++ [.fault] from h]
      rw [List.drop_left]
      rfl
    unfold coreStep
    rw [e1]
    dsimp only
    rw [List.drop_length, h, List.drop_left]
    rfl
  intro s'
  have hs' : s' = _ := e
  rw [hs']
  refine ⟨rfl, rfl, rfl, rfl, ?_⟩
  have hend : ended { s with core := ⟨Lsdb.step c.lsdb s.core.lsdb (.interest (c.lsdb.names.lsaUserPrefix t ++ [last]) v), s.core.rt, s.core.npt⟩ } = true := by
    unfold ended
    dsimp only
    rw [h]
    simp
  induction ops with
  | nil => rfl
  | cons op ops ih =>
    rw [List.foldl_cons]
    rw [show Router.step c _ op = _ from if_pos hend]
    exact ih

end Router
end Nlsr
