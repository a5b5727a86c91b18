import Verif.Proofs.Simple
/-! # Loop lemmas for `lookup.go` -/
namespace Stl4go
variable {T : Type}

theorem maxNLoop_spec [GoOrd T] [LawfulGoOrd T] (a : List T) (rem i : Nat) (v : T) (hl : i + rem = a.length)
    (hv : v ∈ a) (hb : ∀ j (hj : j < a.length), j < i → GoOrd.lt v a[j] = false) :
    ∃ m, maxNLoop a rem i v = .ret m ∧ m ∈ a ∧ ∀ j (hj : j < a.length), GoOrd.lt m a[j] = false := by
  induction rem generalizing i v with
  | zero => exact ⟨v, rfl, hv, fun j hj => hb j hj (by omega)⟩
  | succ rem ih =>
    have hi : i < a.length := by omega
    simp only [maxNLoop, idx_of_lt hi, Outcome.ret_bind]
    cases hc : GoOrd.lt v a[i] with
    | true =>
      simp only [if_true]
      apply ih (i + 1) a[i] (by omega) (List.getElem_mem hi)
      intro j hj hji
      by_cases h : j = i
      · subst h; exact LawfulGoOrd.weak.irrefl _
      · exact LawfulGoOrd.weak.negTrans (LawfulGoOrd.weak.asymm hc) (hb j hj (by omega))
    | false =>
      simp only [Bool.false_eq_true, if_false]
      apply ih (i + 1) v (by omega) hv
      intro j hj hji
      by_cases h : j = i
      · subst h; exact hc
      · exact hb j hj (by omega)

theorem minNLoop_spec [GoOrd T] [LawfulGoOrd T] (a : List T) (rem i : Nat) (v : T) (hl : i + rem = a.length)
    (hv : v ∈ a) (hb : ∀ j (hj : j < a.length), j < i → GoOrd.lt a[j] v = false) :
    ∃ m, minNLoop a rem i v = .ret m ∧ m ∈ a ∧ ∀ j (hj : j < a.length), GoOrd.lt a[j] m = false := by
  induction rem generalizing i v with
  | zero => exact ⟨v, rfl, hv, fun j hj => hb j hj (by omega)⟩
  | succ rem ih =>
    have hi : i < a.length := by omega
    simp only [minNLoop, idx_of_lt hi, Outcome.ret_bind]
    cases hc : GoOrd.lt a[i] v with
    | true =>
      simp only [if_true]
      apply ih (i + 1) a[i] (by omega) (List.getElem_mem hi)
      intro j hj hji
      by_cases h : j = i
      · subst h; exact LawfulGoOrd.weak.irrefl _
      · exact LawfulGoOrd.weak.negTrans (hb j hj (by omega)) (LawfulGoOrd.weak.asymm hc)
    | false =>
      simp only [Bool.false_eq_true, if_false]
      apply ih (i + 1) v (by omega) hv
      intro j hj hji
      by_cases h : j = i
      · subst h; exact hc
      · exact hb j hj (by omega)

/-- The combined loop is the two single loops side by side. -/
theorem minMaxNLoop_spec [GoOrd T] (a : List T) (rem i : Nat) (mn mx : T) (hl : i + rem = a.length)
    {m n : T} (h1 : minNLoop a rem i mn = .ret m) (h2 : maxNLoop a rem i mx = .ret n) :
    minMaxNLoop a rem i mn mx = .ret (m, n) := by
  induction rem generalizing i mn mx with
  | zero => simp only [minNLoop, maxNLoop, Outcome.ret.injEq] at h1 h2; subst h1; subst h2; rfl
  | succ rem ih =>
    have hi : i < a.length := by omega
    simp only [minNLoop, maxNLoop, minMaxNLoop, idx_of_lt hi, Outcome.ret_bind] at *
    apply ih (i + 1) _ _ (by omega)
    · split <;> rename_i hc <;> simpa [hc] using h1
    · split <;> rename_i hc <;> simpa [hc] using h2

theorem findIfLoop_spec (cond : T → Bool) (a : List T) (k : Nat) :
    (∃ i, ∃ hi : i < a.length, findIfLoop cond a k = (((k + i : Nat) : Int), true) ∧ cond a[i] = true ∧
        ∀ j (hj : j < a.length), j < i → cond a[j] = false) ∨
    (findIfLoop cond a k = (-1, false) ∧ ∀ x ∈ a, cond x = false) := by
  induction a generalizing k with
  | nil => right; simp [findIfLoop]
  | cons v a ih =>
    cases hc : cond v with
    | true => left; exact ⟨0, by simp, by simp [findIfLoop, hc], by simpa using hc, by intro j hj h; omega⟩
    | false =>
      rcases ih (k + 1) with ⟨i, hi, h1, h2, h3⟩ | ⟨h1, h2⟩
      · left
        refine ⟨i + 1, by simp; omega, ?_, by simpa using h2, ?_⟩
        · simp only [findIfLoop, hc, Bool.false_eq_true, if_false, h1]; congr 2; omega
        · intro j hj hji
          cases j with
          | zero => simpa using hc
          | succ j => simpa using h3 j (by simpa using hj) (by omega)
      · right
        refine ⟨by simp [findIfLoop, hc, h1], ?_⟩
        intro x hx
        rcases List.mem_cons.1 hx with rfl | hx
        · exact hc
        · exact h2 x hx

theorem findLoop_eq [GoEq T] (x : T) (a : List T) (k : Nat) :
    findLoop x a k = findIfLoop (fun v => GoEq.eq v x) a k := by
  induction a generalizing k with
  | nil => rfl
  | cons v a ih => simp only [findLoop, findIfLoop, ih]

theorem indexLoop_eq [GoEq T] (x : T) (a : List T) (k : Nat) :
    indexLoop x a k = (findIfLoop (fun v => GoEq.eq v x) a k).1 := by
  induction a generalizing k with
  | nil => rfl
  | cons v a ih => simp only [indexLoop, findIfLoop, ih]; split <;> rfl

theorem maxNLoop_first [GoOrd T] [LawfulGoOrd T] (a : List T) (rem i k : Nat) (hl : i + rem = a.length) (hk : k < i) (hka : k < a.length)
    (h1 : ∀ j (hj : j < a.length), j < k → GoOrd.lt a[j] a[k] = true) (h2 : ∀ j (hj : j < a.length), j < i → GoOrd.lt a[k] a[j] = false) :
    ∃ p, ∃ hp : p < a.length, maxNLoop a rem i a[k] = .ret a[p] ∧ (∀ j (hj : j < a.length), j < p → GoOrd.lt a[j] a[p] = true) ∧
      ∀ j (hj : j < a.length), GoOrd.lt a[p] a[j] = false := by
  have W := LawfulGoOrd.weak (T := T)
  induction rem generalizing i k with
  | zero => exact ⟨k, hka, rfl, h1, fun j hj => h2 j hj (by omega)⟩
  | succ rem ih =>
    have hi : i < a.length := by omega
    simp only [maxNLoop, idx_of_lt hi, Outcome.ret_bind]
    by_cases h : GoOrd.lt a[k] a[i] = true
    · rw [if_pos h]
      have less : ∀ j (hj : j < a.length), j < i → GoOrd.lt a[j] a[i] = true := by
        intro j hj hji
        exact W.lt_of_not_of_lt (h2 j hj hji) h
      refine ih (i + 1) i (by omega) (by omega) hi less (fun j hj hji => ?_)
      by_cases e : j = i
      · subst e; exact W.irrefl _
      · exact W.asymm (less j hj (by omega))
    · rw [if_neg h]
      refine ih (i + 1) k (by omega) (by omega) hka h1 (fun j hj hji => ?_)
      by_cases e : j = i
      · subst e; simpa using h
      · exact h2 j hj (by omega)

theorem minNLoop_first [GoOrd T] [LawfulGoOrd T] (a : List T) (rem i k : Nat) (hl : i + rem = a.length) (hk : k < i) (hka : k < a.length)
    (h1 : ∀ j (hj : j < a.length), j < k → GoOrd.lt a[k] a[j] = true) (h2 : ∀ j (hj : j < a.length), j < i → GoOrd.lt a[j] a[k] = false) :
    ∃ p, ∃ hp : p < a.length, minNLoop a rem i a[k] = .ret a[p] ∧ (∀ j (hj : j < a.length), j < p → GoOrd.lt a[p] a[j] = true) ∧
      ∀ j (hj : j < a.length), GoOrd.lt a[j] a[p] = false := by
  have W := LawfulGoOrd.weak (T := T)
  induction rem generalizing i k with
  | zero => exact ⟨k, hka, rfl, h1, fun j hj => h2 j hj (by omega)⟩
  | succ rem ih =>
    have hi : i < a.length := by omega
    simp only [minNLoop, idx_of_lt hi, Outcome.ret_bind]
    by_cases h : GoOrd.lt a[i] a[k] = true
    · rw [if_pos h]
      have less : ∀ j (hj : j < a.length), j < i → GoOrd.lt a[i] a[j] = true := by
        intro j hj hji
        exact W.lt_of_lt_of_not h (h2 j hj hji)
      refine ih (i + 1) i (by omega) (by omega) hi less (fun j hj hji => ?_)
      by_cases e : j = i
      · subst e; exact W.irrefl _
      · exact W.asymm (less j hj (by omega))
    · rw [if_neg h]
      refine ih (i + 1) k (by omega) (by omega) hka h1 (fun j hj hji => ?_)
      by_cases e : j = i
      · subst e; simpa using h
      · exact h2 j hj (by omega)

end Stl4go
