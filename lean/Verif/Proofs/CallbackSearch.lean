import Verif.Spec.CallbackSearch
import Verif.Proofs.Callback
/-!
# Lemmas for C110
-/
namespace Stl4go
variable {T σ α ρ : Type}

theorem digits_half (n : Nat) : (if n / 2 = 0 then 0 else Nat.log2 (n / 2) + 1) + 1 ≤ Nat.log2 n + 1 := by
  rw [Nat.log2_def n]
  by_cases h2 : n ≥ 2
  · rw [if_pos h2, if_neg (by omega)]
    omega
  · rw [if_neg h2, if_pos (by omega)]
    omega

theorem digits_mono {m n : Nat} (h : m ≤ n) : (if m = 0 then 0 else Nat.log2 m + 1) ≤ if n = 0 then 0 else Nat.log2 n + 1 := by
  by_cases hm : m = 0
  · simp [hm]
  · rw [if_neg hm, if_neg (by omega)]
    have h1 : 2 ^ Nat.log2 m ≤ n := Nat.le_trans (Nat.log2_self_le hm) h
    have := (Nat.le_log2 (by omega)).2 h1
    omega

/-- Asking about the middle and then narrowing one side. -/
theorem Narrows.step_right {lo c : Nat} {js : List Nat} (hc : 0 < c) (h : Narrows (lo + c / 2 + 1) (lo + c / 2 + 1 + (c - (c / 2 + 1))) js) :
    Narrows lo (lo + c) ((lo + c / 2) :: js) := by
  obtain ⟨h1, h2, h3⟩ := h
  refine ⟨?_, ?_, ?_⟩
  · rw [List.nodup_cons]
    refine ⟨fun hm => ?_, h1⟩
    have := h2 _ hm
    omega
  · intro j hj
    rw [List.mem_cons] at hj
    rcases hj with hj | hj
    · omega
    · have := h2 j hj
      omega
  · have e : lo + c / 2 + 1 + (c - (c / 2 + 1)) - (lo + c / 2 + 1) = c - (c / 2 + 1) := by omega
    rw [e] at h3
    have e2 : lo + c - lo = c := by omega
    rw [e2, if_neg (by omega), List.length_cons]
    have := digits_mono (m := c - (c / 2 + 1)) (n := c / 2) (by omega)
    have := digits_half c
    omega

theorem Narrows.step_left {lo c : Nat} {js : List Nat} (hc : 0 < c) (h : Narrows lo (lo + c / 2) js) : Narrows lo (lo + c) ((lo + c / 2) :: js) := by
  obtain ⟨h1, h2, h3⟩ := h
  refine ⟨?_, ?_, ?_⟩
  · rw [List.nodup_cons]
    refine ⟨fun hm => ?_, h1⟩
    have := h2 _ hm
    omega
  · intro j hj
    rw [List.mem_cons] at hj
    rcases hj with hj | hj
    · omega
    · have := h2 j hj
      omega
  · have e : lo + c / 2 - lo = c / 2 := by omega
    rw [e] at h3
    have e2 : lo + c - lo = c := by omega
    rw [e2, if_neg (by omega), List.length_cons]
    have := digits_half c
    omega

theorem Narrows.one {lo c : Nat} (hc : 0 < c) : Narrows lo (lo + c) [lo + c / 2] := by
  refine Narrows.step_left hc ⟨by simp, by simp, by simp⟩

/-- The loop of the two searches. -/
def bisectLoop (q : Nat → GoM σ Bool) : (fuel loc count : Nat) → GoM σ Nat
  | 0, _, _ => GoM.diverge
  | fuel + 1, loc, count =>
    if count > 0 then do
      let b ← q (loc + count / 2)
      if b = true then bisectLoop q fuel (loc + count / 2 + 1) (count - (count / 2 + 1))
      else bisectLoop q fuel loc (count / 2)
    else pure loc

theorem SearchOk.right {q : Nat → GoM σ Bool} {lo c : Nat} {s s1 : σ} {r : Res σ Nat} (hc : 0 < c) (hq : q (lo + c / 2) s = .ok true s1)
    (h : SearchOk q (lo + c / 2 + 1) (lo + c / 2 + 1 + (c - (c / 2 + 1))) s1 r) : SearchOk q lo (lo + c) s r := by
  cases r with
  | ok p s' =>
    obtain ⟨tr, ht, hn, h1, h2, h3, h4, h5⟩ := h
    refine ⟨(lo + c / 2, true) :: tr, .next hq ht, hn.step_right hc, by omega, by omega, ?_, ?_, ?_⟩
    · intro e he
      rw [List.mem_cons] at he
      rcases he with he | he
      · subst he; simp; omega
      · exact h3 e he
    · intro _
      by_cases hp : lo + c / 2 + 1 < p
      · exact List.mem_cons_of_mem _ (h4 hp)
      · have : p - 1 = lo + c / 2 := by omega
        rw [this]; simp
    · intro hp
      exact List.mem_cons_of_mem _ (h5 (by omega))
  | panic s' =>
    obtain ⟨tr, s2, j, ht, hj, hn⟩ := h
    exact ⟨(lo + c / 2, true) :: tr, s2, j, .next hq ht, hj, hn.step_right hc⟩
  | diverge =>
    obtain ⟨tr, s2, j, ht, hj, hn⟩ := h
    exact ⟨(lo + c / 2, true) :: tr, s2, j, .next hq ht, hj, hn.step_right hc⟩

theorem SearchOk.left {q : Nat → GoM σ Bool} {lo c : Nat} {s s1 : σ} {r : Res σ Nat} (hc : 0 < c) (hq : q (lo + c / 2) s = .ok false s1)
    (h : SearchOk q lo (lo + c / 2) s1 r) : SearchOk q lo (lo + c) s r := by
  cases r with
  | ok p s' =>
    obtain ⟨tr, ht, hn, h1, h2, h3, h4, h5⟩ := h
    refine ⟨(lo + c / 2, false) :: tr, .next hq ht, hn.step_left hc, by omega, by omega, ?_, ?_, ?_⟩
    · intro e he
      rw [List.mem_cons] at he
      rcases he with he | he
      · subst he; simp; omega
      · exact h3 e he
    · intro hp
      exact List.mem_cons_of_mem _ (h4 hp)
    · intro _
      by_cases hp : p < lo + c / 2
      · exact List.mem_cons_of_mem _ (h5 hp)
      · have : p = lo + c / 2 := by omega
        rw [this]; simp
  | panic s' =>
    obtain ⟨tr, s2, j, ht, hj, hn⟩ := h
    exact ⟨(lo + c / 2, false) :: tr, s2, j, .next hq ht, hj, hn.step_left hc⟩
  | diverge =>
    obtain ⟨tr, s2, j, ht, hj, hn⟩ := h
    exact ⟨(lo + c / 2, false) :: tr, s2, j, .next hq ht, hj, hn.step_left hc⟩

theorem bisectLoop_ok (q : Nat → GoM σ Bool) (fuel lo c : Nat) (s : σ) (hf : c < fuel) : SearchOk q lo (lo + c) s (bisectLoop q fuel lo c s) := by
  induction fuel generalizing lo c s with
  | zero => omega
  | succ fuel ih =>
    unfold bisectLoop
    by_cases hc : c > 0
    · rw [if_pos hc]
      simp only [GoM.bind_def]
      cases hq : q (lo + c / 2) s with
      | panic s' => exact ⟨[], s, _, .none s, hq, Narrows.one hc⟩
      | diverge => exact ⟨[], s, _, .none s, hq, Narrows.one hc⟩
      | ok b s1 =>
        cases b with
        | true => exact SearchOk.right hc hq (ih _ _ s1 (by omega))
        | false => exact SearchOk.left hc hq (ih _ _ s1 (by omega))
    · rw [if_neg hc]
      have : c = 0 := by omega
      subst this
      exact ⟨[], .none s, ⟨by simp, by simp, by simp⟩, by omega, by omega, by simp, by omega, by omega⟩

/-- Read an element that is there, then call. -/
theorem CS.get_then (a : Sl) (j : Nat) (hj : j < a.len) (f : T → GoM (CS T ρ) α) :
    (do let x ← CS.on (a.get j); f x : GoM (CS T ρ) α) = withElem a f j := by
  funext s
  simp only [GoM.bind_def, CS.on_ok (Sl.get_ok a s.mem j hj), withElem]
  rw [Sl.read_getElem]

theorem lowerBoundFuncLoopE_eq (a : Sl) (value : T) (less : T → T → GoM (CS T ρ) Bool) (fuel loc count : Nat) (h : loc + count ≤ a.len) :
    lowerBoundFuncLoopE a value less fuel loc count = bisectLoop (withElem a (fun x => less x value)) fuel loc count := by
  induction fuel generalizing loc count with
  | zero => rfl
  | succ fuel ih =>
    unfold lowerBoundFuncLoopE bisectLoop
    by_cases hc : count > 0
    · rw [if_pos hc, if_pos hc]
      simp only [ih (loc + count / 2 + 1) (count - (count / 2 + 1)) (by omega), ih loc (count / 2) (by omega)]
      funext s
      have hg := congrFun (CS.get_then a (loc + count / 2) (by omega) (fun x => less x value)) s
      simp only [GoM.bind_def, CS.on_ok (Sl.get_ok a s.mem (loc + count / 2) (by omega))] at hg ⊢
      rw [← hg]
    · rw [if_neg hc, if_neg hc]

theorem upperBoundFuncLoopE_eq (a : Sl) (value : T) (less : T → T → GoM (CS T ρ) Bool) (fuel loc count : Nat) (h : loc + count ≤ a.len) :
    upperBoundFuncLoopE a value less fuel loc count =
      bisectLoop (withElem a (fun x => do let b ← less value x; pure (!b))) fuel loc count := by
  induction fuel generalizing loc count with
  | zero => rfl
  | succ fuel ih =>
    unfold upperBoundFuncLoopE bisectLoop
    by_cases hc : count > 0
    · rw [if_pos hc, if_pos hc]
      simp only [ih (loc + count / 2 + 1) (count - (count / 2 + 1)) (by omega), ih loc (count / 2) (by omega)]
      funext s
      have hg := congrFun (CS.get_then a (loc + count / 2) (by omega) (fun x => do let b ← less value x; pure (!b))) s
      simp only [GoM.bind_def, CS.on_ok (Sl.get_ok a s.mem (loc + count / 2) (by omega))] at hg ⊢
      rw [← hg]
      generalize less value _ _ = r
      cases r with
      | panic s => rfl
      | diverge => rfl
      | ok b s2 => cases b <;> rfl
    · rw [if_neg hc, if_neg hc]

end Stl4go
