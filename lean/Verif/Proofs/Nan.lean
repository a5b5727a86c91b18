import Verif.Spec.Nan
import Verif.Proofs.BinarySearch
import Verif.Proofs.Lookup
import Verif.Model.Compare
/-! # Proofs about NaN -/
namespace Stl4go
variable {T : Type}

instance [GoOrd T] [LawfulGoOrd T] : FloatOrd T where
  nan a b h := by
    have : GoEq.eq a a = true := LawfulGoEq.refl a
    simp [isNan, this] at h
  irrefl := LawfulGoOrd.weak.irrefl
  trans := LawfulGoOrd.weak.trans
  between a b c _ h := by
    cases h1 : GoOrd.lt a b with
    | true => exact .inl rfl
    | false =>
      cases h2 : GoOrd.lt b c with
      | true => exact .inr rfl
      | false =>
        have W := LawfulGoOrd.weak (T := T)
        cases h3 : GoOrd.lt b a with
        | true => rw [W.trans _ _ _ h3 h] at h2; exact nomatch h2
        | false =>
          cases h4 : GoOrd.lt c b with
          | true => rw [W.trans _ _ _ h h4] at h1; exact nomatch h1
          | false => rw [W.incomp a b c h1 h3 h2 h4] at h; exact nomatch h
  eq_iff a b _ _ := LawfulGoOrd.eq_iff a b

instance : FloatOrd Flt where
  nan a b h := by
    cases a with
    | nan => cases b <;> exact ⟨rfl, rfl, rfl, rfl⟩
    | fin z => simp [isNan, GoEq.eq, Flt.eq] at h
    | inf s => simp [isNan, GoEq.eq, Flt.eq] at h
  irrefl a := by cases a <;> simp [GoOrd.lt, Flt.lt]
  trans a b c h1 h2 := by
    cases a <;> cases b <;> cases c <;> simp_all [GoOrd.lt, Flt.lt]
    omega
  between a b c hb h := by
    cases a <;> cases b <;> cases c <;> simp_all [GoOrd.lt, Flt.lt, isNan, GoEq.eq, Flt.eq]
    omega
  eq_iff a b ha hb := by
    cases a <;> cases b <;> simp_all [GoOrd.lt, Flt.lt, isNan, GoEq.eq, Flt.eq]
    · omega
    · rename_i s t; cases s <;> cases t <;> simp

variable [GoOrd T] [FloatOrd T]

theorem FloatOrd.asymm {a b : T} (h : GoOrd.lt a b = true) : GoOrd.lt b a = false := by
  cases h1 : GoOrd.lt b a with
  | false => rfl
  | true => rw [← FloatOrd.irrefl a]; exact (FloatOrd.trans a b a h h1).symm

theorem FloatOrd.notNan {a b : T} (h : GoOrd.lt a b = true) : isNan a = false ∧ isNan b = false := by
  constructor
  · cases hn : isNan a with
    | false => rfl
    | true => rw [(FloatOrd.nan a b hn).1] at h; exact nomatch h
  · cases hn : isNan b with
    | false => rfl
    | true => rw [(FloatOrd.nan b a hn).2.1] at h; exact nomatch h

/-- Neither less: equal, or one is NaN. -/
theorem alikeNan_iff (x y : T) : AlikeNan x y ↔ (GoOrd.lt x y = false ∧ GoOrd.lt y x = false) := by
  unfold AlikeNan
  constructor
  · rintro (h | h | h)
    · cases hx : isNan x with
      | true => exact ⟨(FloatOrd.nan x y hx).1, (FloatOrd.nan x y hx).2.1⟩
      | false =>
        cases hy : isNan y with
        | true => exact ⟨(FloatOrd.nan y x hy).2.1, (FloatOrd.nan y x hy).1⟩
        | false => exact (FloatOrd.eq_iff x y hx hy).1 h
    · exact ⟨(FloatOrd.nan x y h).1, (FloatOrd.nan x y h).2.1⟩
    · exact ⟨(FloatOrd.nan y x h).2.1, (FloatOrd.nan y x h).1⟩
  · intro h
    cases hx : isNan x with
    | true => exact .inr (.inl rfl)
    | false =>
      cases hy : isNan y with
      | true => exact .inr (.inr rfl)
      | false => exact .inl ((FloatOrd.eq_iff x y hx hy).2 h)

theorem minNLoop_nan (a : List T) (v : T) (hv : isNan v = true) (rem i : Nat) (hl : i + rem = a.length) : minNLoop a rem i v = .ret v := by
  induction rem generalizing i with
  | zero => rfl
  | succ rem ih =>
    have hi : i < a.length := by omega
    simp only [minNLoop, idx_of_lt hi, Outcome.ret_bind]
    rw [if_neg (by rw [(FloatOrd.nan v a[i] hv).2.1]; decide)]
    exact ih (i + 1) (by omega)

theorem maxNLoop_nan (a : List T) (v : T) (hv : isNan v = true) (rem i : Nat) (hl : i + rem = a.length) : maxNLoop a rem i v = .ret v := by
  induction rem generalizing i with
  | zero => rfl
  | succ rem ih =>
    have hi : i < a.length := by omega
    simp only [maxNLoop, idx_of_lt hi, Outcome.ret_bind]
    rw [if_neg (by rw [(FloatOrd.nan v a[i] hv).1]; decide)]
    exact ih (i + 1) (by omega)

theorem minNLoop_num (a : List T) (rem i : Nat) (v : T) (hl : i + rem = a.length) (hv : v ∈ a) (hn : isNan v = false)
    (hb : ∀ j (hj : j < a.length), j < i → GoOrd.lt a[j] v = false) :
    ∃ m, minNLoop a rem i v = .ret m ∧ m ∈ a ∧ isNan m = false ∧ ∀ j (hj : j < a.length), GoOrd.lt a[j] m = false := by
  induction rem generalizing i v with
  | zero => exact ⟨v, rfl, hv, hn, fun j hj => hb j hj (by omega)⟩
  | succ rem ih =>
    have hi : i < a.length := by omega
    simp only [minNLoop, idx_of_lt hi, Outcome.ret_bind]
    by_cases h : GoOrd.lt a[i] v = true
    · rw [if_pos h]
      refine ih (i + 1) a[i] (by omega) (List.getElem_mem hi) (FloatOrd.notNan h).1 (fun j hj hji => ?_)
      by_cases e : j = i
      · subst e; exact FloatOrd.irrefl _
      · cases hx : GoOrd.lt a[j] a[i] with
        | false => rfl
        | true => rw [← hb j hj (by omega)]; exact (FloatOrd.trans _ _ _ hx h).symm
    · rw [if_neg h]
      refine ih (i + 1) v (by omega) hv hn (fun j hj hji => ?_)
      by_cases e : j = i
      · subst e; simpa using h
      · exact hb j hj (by omega)

theorem maxNLoop_num (a : List T) (rem i : Nat) (v : T) (hl : i + rem = a.length) (hv : v ∈ a) (hn : isNan v = false)
    (hb : ∀ j (hj : j < a.length), j < i → GoOrd.lt v a[j] = false) :
    ∃ m, maxNLoop a rem i v = .ret m ∧ m ∈ a ∧ isNan m = false ∧ ∀ j (hj : j < a.length), GoOrd.lt m a[j] = false := by
  induction rem generalizing i v with
  | zero => exact ⟨v, rfl, hv, hn, fun j hj => hb j hj (by omega)⟩
  | succ rem ih =>
    have hi : i < a.length := by omega
    simp only [maxNLoop, idx_of_lt hi, Outcome.ret_bind]
    by_cases h : GoOrd.lt v a[i] = true
    · rw [if_pos h]
      refine ih (i + 1) a[i] (by omega) (List.getElem_mem hi) (FloatOrd.notNan h).2 (fun j hj hji => ?_)
      by_cases e : j = i
      · subst e; exact FloatOrd.irrefl _
      · cases hx : GoOrd.lt a[i] a[j] with
        | false => rfl
        | true => rw [← hb j hj (by omega)]; exact (FloatOrd.trans _ _ _ h hx).symm
    · rw [if_neg h]
      refine ih (i + 1) v (by omega) hv hn (fun j hj hji => ?_)
      by_cases e : j = i
      · subst e; simpa using h
      · exact hb j hj (by omega)

omit [FloatOrd T] in
/-- Where `Compare` stops, for any `<`. -/
theorem compareLoop_stop (la : Nat) (b : List T) : ∀ (a : List T) (i : Nat), i + a.length = la → i ≤ b.length →
    ∃ n, n ≤ a.length ∧ i + n ≤ b.length ∧ (∀ j (hj : j < a.length) (hb : i + j < b.length), j < n → GoOrd.lt a[j] b[i + j] = false ∧ GoOrd.lt b[i + j] a[j] = false) ∧
      ((n = a.length ∧ i + n = b.length ∧ compareLoop la b a i = .ret 0) ∨
       (((n = a.length ∧ i + n < b.length) ∨ ∃ (hn : n < a.length) (hb : i + n < b.length), GoOrd.lt a[n] b[i + n] = true) ∧ compareLoop la b a i = .ret (-1)) ∨
       (((n < a.length ∧ i + n = b.length) ∨ ∃ (hn : n < a.length) (hb : i + n < b.length), GoOrd.lt a[n] b[i + n] = false ∧ GoOrd.lt b[i + n] a[n] = true) ∧
         compareLoop la b a i = .ret 1)) := by
  intro a
  induction a with
  | nil =>
    intro i hla hi
    refine ⟨0, Nat.le_refl _, by omega, fun j hj => absurd hj (Nat.not_lt_zero _), ?_⟩
    simp only [List.length_nil, Nat.add_zero] at hla
    subst hla
    by_cases h : i < b.length
    · exact .inr (.inl ⟨.inl ⟨rfl, h⟩, by simp only [compareLoop, if_pos h]⟩)
    · exact .inl ⟨rfl, by omega, by simp only [compareLoop, if_neg h]⟩
  | cons x a ih =>
    intro i hla hi
    simp only [List.length_cons] at hla
    by_cases h : i ≥ b.length
    · refine ⟨0, by omega, by omega, fun j _ _ hj => absurd hj (Nat.not_lt_zero _), .inr (.inr ⟨.inl ⟨by simp, by omega⟩, by simp only [compareLoop, if_pos h]⟩)⟩
    · have hib : i < b.length := by omega
      by_cases h1 : GoOrd.lt x b[i] = true
      · refine ⟨0, by omega, by omega, fun j _ _ hj => absurd hj (Nat.not_lt_zero _), .inr (.inl ⟨.inr ⟨by simp, by omega, by simpa using h1⟩, ?_⟩)⟩
        simp only [compareLoop, if_neg h, idx_of_lt hib, Outcome.ret_bind, if_pos h1]; rfl
      · by_cases h2 : GoOrd.lt b[i] x = true
        · refine ⟨0, by omega, by omega, fun j _ _ hj => absurd hj (Nat.not_lt_zero _), .inr (.inr ⟨.inr ⟨by simp, by omega, by simpa using h1, by simpa using h2⟩, ?_⟩)⟩
          simp only [compareLoop, if_neg h, idx_of_lt hib, Outcome.ret_bind, if_neg h1, if_pos h2]; rfl
        · have e : compareLoop la b (x :: a) i = compareLoop la b a (i + 1) := by
            simp only [compareLoop, if_neg h, idx_of_lt hib, Outcome.ret_bind, if_neg h1, if_neg h2]
          obtain ⟨n, a1, a2, a3, a4⟩ := ih (i + 1) (by omega) (by omega)
          refine ⟨n + 1, by simp only [List.length_cons]; omega, by omega, fun j hj hb hjn => ?_, ?_⟩
          · cases j with
            | zero => exact ⟨by simpa using h1, by simpa using h2⟩
            | succ j =>
              have := a3 j (by simpa using hj) (by omega) (by omega)
              simpa only [List.getElem_cons_succ, Nat.add_right_comm i 1 j, Nat.add_assoc] using this
          · rw [e]
            have ix : i + 1 + n = i + (n + 1) := by omega
            simp only [ix] at a2 a4
            simpa only [List.length_cons, List.getElem_cons_succ, Nat.add_right_cancel_iff, Nat.add_lt_add_iff_right] using a4

end Stl4go
