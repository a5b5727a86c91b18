import Verif.Model.GenerateCost
import Verif.Proofs.SliceCost
import Verif.Proofs.Generate
/-! # Lemmas for C168 on `/repo/generate.go` -/
namespace Stl4go
variable {T σ : Type} {pf : Platform}

theorem generateLoopAcc_within (a : Sl) (gen : σ → σ × T) : ∀ (n i : Nat) (t : σ) (m : Mem T),
    Within m (generateLoopAcc a gen n i t) (generateLoop a gen n i t) n (fun _ _ => True) := by
  intro n
  induction n with
  | zero => intro i t m; exact Within.pure trivial
  | succ n ih => intro i t m; exact (putAcc_within a i _).bind (fun _ _ _ => ih _ _ _) (by omega)

theorem rangeLoopAcc_within (grow : Nat → Nat → Nat) (k : NKind) {last v : k.Val} {vs : List k.Val} (h : Climb pf k last v vs) : ∀ (fuel : Nat) (a : Sl) (m : Mem k.Val),
    a.len + vs.length ≤ a.cap → Within m (rangeLoopAcc pf grow k last fuel v a) (rangeLoop pf grow k last fuel v a) vs.length (fun _ _ => True) := by
  induction h with
  | stop h =>
    intro fuel a m _
    cases fuel with
    | zero => exact Within.forever
    | succ fuel => simp only [rangeLoopAcc, rangeLoop, h]; exact Within.pure trivial
  | step h _ ih =>
    intro fuel a m ha
    cases fuel with
    | zero => exact Within.forever.mono (Nat.zero_le _) (fun _ _ h => h)
    | succ fuel =>
      simp only [rangeLoopAcc, rangeLoop, h, if_true]
      rw [List.length_cons] at ha
      exact (appendAcc_room grow a _ (by simp only [List.length_singleton]; omega)).bind (fun b _ hb => ih _ _ _ (by simp only [List.length_singleton] at hb; omega))
        (by simp only [List.length_cons, List.length_nil]; omega)

end Stl4go
