import Verif.Model.IndexWrap
import Verif.Spec.Numeric
import Verif.Spec.IndexWrap
import Verif.Proofs.Vector
/-! # Lemmas for C169 -/
namespace Stl4go
variable {T : Type} {w : Nat}

theorem intMax_eq (w : Nat) : GoInt.int.max w = 2 ^ (w - 1) - 1 := rfl
theorem intMin_eq (w : Nat) : GoInt.int.min w = - 2 ^ (w - 1) := rfl

/-- `P` is half of the range of `int`. -/
theorem intWrap_eq (hw : 0 < w) : ∃ P : Int, 0 < P ∧ GoInt.int.max w = P - 1 ∧ GoInt.int.min w = - P ∧
    (∀ z, - P ≤ z → z < P → GoInt.int.wrap w z = z) ∧ (∀ z, P ≤ z → z < 2 * P → GoInt.int.wrap w z = z - 2 * P) ∧ (∀ z, - 2 * P ≤ z → z < - P → GoInt.int.wrap w z = z + 2 * P) := by
  obtain ⟨v, rfl⟩ : ∃ v, w = v + 1 := ⟨w - 1, by omega⟩
  have hp : (0 : Int) < 2 ^ v := by exact_mod_cast Nat.two_pow_pos v
  refine ⟨2 ^ v, hp, rfl, rfl, ?_⟩
  have he : ((2 ^ (v + 1) : Nat) : Int) = 2 * 2 ^ v := by rw [Nat.pow_succ]; push_cast; omega
  have wd : ∀ z, GoInt.int.wrap (v + 1) z = Int.bmod z (2 ^ (v + 1)) := fun z => rfl
  refine ⟨fun z h1 h2 => ?_, fun z h1 h2 => ?_, fun z h1 h2 => ?_⟩
  all_goals
    rw [wd, Int.bmod_def, he]
  · by_cases h : z < 0
    · rw [show z % (2 * 2 ^ v) = z + 2 * 2 ^ v by
        rw [← Int.add_mul_emod_self_left z (2 * 2 ^ v) 1, Int.mul_one]; exact Int.emod_eq_of_lt (by omega) (by omega)]
      rw [if_neg (by omega)]; omega
    · rw [Int.emod_eq_of_lt (by omega) (by omega), if_pos (by omega)]
  · rw [Int.emod_eq_of_lt (by omega) (by omega), if_neg (by omega)]
  · rw [show z % (2 * 2 ^ v) = z + 2 * 2 ^ v by
        rw [← Int.add_mul_emod_self_left z (2 * 2 ^ v) 1, Int.mul_one]; exact Int.emod_eq_of_lt (by omega) (by omega)]
    rw [if_pos (by omega)]

theorem lowerBoundFuncLoopInt_eq (hw : 0 < w) (a : List T) (ha : (a.length : Int) ≤ GoInt.int.max w) (value : T) (less : T → T → Bool) : ∀ (fuel loc count : Nat), loc + count ≤ a.length →
    lowerBoundFuncLoopInt w a value less fuel loc count = (lowerBoundFuncLoop a value less fuel loc count).toInt := by
  obtain ⟨P, hP, hmax, _, wr, _⟩ := intWrap_eq hw
  intro fuel
  induction fuel with
  | zero => intro loc count _; rfl
  | succ fuel ih =>
    intro loc count h
    by_cases hc : count > 0
    · have e1 : (count : Int).tdiv 2 = ((count / 2 : Nat) : Int) := by rw [Int.tdiv_eq_ediv_of_nonneg (by omega)]; omega
      have e2 : addInt w loc ((count / 2 : Nat) : Int) = ((loc + count / 2 : Nat) : Int) := by unfold addInt; rw [wr _ (by omega) (by omega)]; omega
      have e3 : addInt w ((loc + count / 2 : Nat) : Int) 1 = ((loc + count / 2 + 1 : Nat) : Int) := by unfold addInt; rw [wr _ (by omega) (by omega)]; omega
      have e4 : subInt w count (addInt w ((count / 2 : Nat) : Int) 1) = ((count - (count / 2 + 1) : Nat) : Int) := by
        unfold subInt addInt; rw [wr (_ + 1) (by omega) (by omega), wr _ (by omega) (by omega)]; omega
      have e5 : idxInt a ((loc + count / 2 : Nat) : Int) = idx a (loc + count / 2) := by unfold idxInt; rw [if_neg (by omega)]; rfl
      have hi : loc + count / 2 < a.length := by omega
      have ix : idx a (loc + count / 2) = .ret a[loc + count / 2] := by simp [idx, hi]
      simp only [lowerBoundFuncLoopInt, lowerBoundFuncLoop, e1, e2, e3, e4, e5, ix, Outcome.ret_bind, if_pos hc, if_pos (show (count : Int) > 0 by omega)]
      cases less a[loc + count / 2] value with
      | true => simp only [if_true]; exact ih _ _ (by omega)
      | false => simp only [Bool.false_eq_true, if_false]; exact ih _ _ (by omega)
    · simp only [lowerBoundFuncLoopInt, lowerBoundFuncLoop, if_neg hc, if_neg (show ¬ (count : Int) > 0 by omega)]; rfl

theorem upperBoundFuncLoopInt_eq (hw : 0 < w) (a : List T) (ha : (a.length : Int) ≤ GoInt.int.max w) (value : T) (less : T → T → Bool) : ∀ (fuel loc count : Nat), loc + count ≤ a.length →
    upperBoundFuncLoopInt w a value less fuel loc count = (upperBoundFuncLoop a value less fuel loc count).toInt := by
  obtain ⟨P, hP, hmax, _, wr, _⟩ := intWrap_eq hw
  intro fuel
  induction fuel with
  | zero => intro loc count _; rfl
  | succ fuel ih =>
    intro loc count h
    by_cases hc : count > 0
    · have e1 : (count : Int).tdiv 2 = ((count / 2 : Nat) : Int) := by rw [Int.tdiv_eq_ediv_of_nonneg (by omega)]; omega
      have e2 : addInt w loc ((count / 2 : Nat) : Int) = ((loc + count / 2 : Nat) : Int) := by unfold addInt; rw [wr _ (by omega) (by omega)]; omega
      have e3 : addInt w ((loc + count / 2 : Nat) : Int) 1 = ((loc + count / 2 + 1 : Nat) : Int) := by unfold addInt; rw [wr _ (by omega) (by omega)]; omega
      have e4 : subInt w count (addInt w ((count / 2 : Nat) : Int) 1) = ((count - (count / 2 + 1) : Nat) : Int) := by
        unfold subInt addInt; rw [wr (_ + 1) (by omega) (by omega), wr _ (by omega) (by omega)]; omega
      have e5 : idxInt a ((loc + count / 2 : Nat) : Int) = idx a (loc + count / 2) := by unfold idxInt; rw [if_neg (by omega)]; rfl
      have hi : loc + count / 2 < a.length := by omega
      have ix : idx a (loc + count / 2) = .ret a[loc + count / 2] := by simp [idx, hi]
      simp only [upperBoundFuncLoopInt, upperBoundFuncLoop, e1, e2, e3, e4, e5, ix, Outcome.ret_bind, if_pos hc, if_pos (show (count : Int) > 0 by omega)]
      cases less value a[loc + count / 2] with
      | false => simp only [Bool.not_false, if_true]; exact ih _ _ (by omega)
      | true => simp only [Bool.not_true, Bool.false_eq_true, if_false]; exact ih _ _ (by omega)
    · simp only [upperBoundFuncLoopInt, upperBoundFuncLoop, if_neg hc, if_neg (show ¬ (count : Int) > 0 by omega)]; rfl

theorem lowerBoundLoopInt_func [GoOrd T] (a : List T) (value : T) : ∀ fuel loc count, lowerBoundLoopInt w a value fuel loc count = lowerBoundFuncLoopInt w a value GoOrd.lt fuel loc count
  | 0, _, _ => rfl
  | fuel + 1, loc, count => by simp only [lowerBoundLoopInt, lowerBoundFuncLoopInt, lowerBoundLoopInt_func a value fuel]

theorem upperBoundLoopInt_func [GoOrd T] (a : List T) (value : T) : ∀ fuel loc count, upperBoundLoopInt w a value fuel loc count = upperBoundFuncLoopInt w a value GoOrd.lt fuel loc count
  | 0, _, _ => rfl
  | fuel + 1, loc, count => by simp only [upperBoundLoopInt, upperBoundFuncLoopInt, upperBoundLoopInt_func a value fuel]

theorem GoM.bind_congr {σ α β : Type} {x : GoM σ α} {f g : α → GoM σ β} {s : σ} (h : ∀ a s', x s = .ok a s' → f a s' = g a s') : (x >>= f) s = (x >>= g) s := by
  rw [GoM.bind_def, GoM.bind_def]
  cases e : x s with
  | ok a s' => exact h a s' e
  | panic s' => rfl
  | diverge => rfl

theorem on_slice {s : Sl} {lo hi : Int} {σ σ' : VS T} {a : Sl} (h : VS.on (s.slice lo hi) σ = .ok a σ') : (a.len : Int) = hi - lo ∧ 0 ≤ lo ∧ hi ≤ s.cap := by
  unfold VS.on Sl.slice at h
  by_cases c : 0 ≤ lo ∧ lo ≤ hi ∧ hi ≤ (s.cap : Int)
  · simp only [if_pos c] at h
    injection h with h1 h2
    subst h1
    exact ⟨by show ((hi - lo).toNat : Int) = _; omega, c.1, c.2.2⟩
  · simp only [if_neg c] at h; cases h

theorem on_slice_stops {s : Sl} {lo hi : Int} {σ : VS T} (h : ¬ (0 ≤ lo ∧ lo ≤ hi ∧ hi ≤ s.cap)) : VS.on (s.slice lo hi) σ = .panic σ := by
  unfold VS.on Sl.slice
  simp only [if_neg h]

theorem removeRange_stops [GoZero T] (grow : Nat → Nat → Nat) (s : VS T) (i j : Int) (h : j < 0 ∨ (s.v.len : Int) < j) : Vec.removeRange grow i j s = .panic s := by
  unfold Vec.removeRange
  rw [GoM.bind_def]
  show (VS.on (s.v.slice 0 i) >>= _) s = _
  rw [GoM.bind_def]
  cases e : VS.on (s.v.slice 0 i) s with
  | ok a s' =>
    have : s' = s := by
      unfold VS.on Sl.slice at e
      by_cases c : (0 : Int) ≤ 0 ∧ 0 ≤ i ∧ i ≤ (s.v.cap : Int)
      · simp only [if_pos c] at e; injection e with _ e; exact e.symm
      · simp only [if_neg c] at e; cases e
    subst this
    show (VS.on (s'.v.slice j s'.v.len) >>= _) s' = _
    rw [GoM.bind_def, on_slice_stops (by omega)]
  | panic s' =>
    unfold VS.on Sl.slice at e
    by_cases c : (0 : Int) ≤ 0 ∧ 0 ≤ i ∧ i ≤ (s.v.cap : Int)
    · simp only [if_pos c] at e; cases e
    · simp only [if_neg c] at e; injection e with e; rw [← e]
  | diverge =>
    unfold VS.on Sl.slice at e
    by_cases c : (0 : Int) ≤ 0 ∧ 0 ≤ i ∧ i ≤ (s.v.cap : Int)
    · simp only [if_pos c] at e; cases e
    · simp only [if_neg c] at e; cases e

theorem on_slice_wrapped (hw : 0 < w) {i : Int} (hi : GoInt.int.Holds w i) {x : Nat} (hx : (x : Int) ≤ GoInt.int.max w) (s2 : Sl) (h2 : (s2.len : Int) ≤ GoInt.int.max w) :
    (VS.on (s2.slice (addInt w i x) s2.len) : GoM (VS T) Sl) = VS.on (s2.slice (i + x) s2.len) := by
  obtain ⟨P, hP, hmax, hmin, wr, wu, _⟩ := intWrap_eq hw
  obtain ⟨i1, i2⟩ := hi
  by_cases h : i + x < P
  · unfold addInt; rw [wr _ (by omega) h]
  · funext σ
    have : addInt w i x = i + x - 2 * P := by unfold addInt; exact wu _ (by omega) (by omega)
    rw [this, on_slice_stops (by omega), on_slice_stops (by omega)]

theorem removeRange_negative [GoZero T] (grow : Nat → Nat → Nat) (s : VS T) (i j : Int) (h : i < 0) : Vec.removeRange grow i j s = .panic s := by
  unfold Vec.removeRange
  rw [GoM.bind_def]
  show (VS.on (s.v.slice 0 i) >>= _) s = _
  rw [GoM.bind_def, on_slice_stops (by omega)]

end Stl4go
