import Verif.Proofs.FloatSpecial
import Verif.Props.Numeric
/-! # C185: infinities and NaN in sums and averages -/
namespace Stl4go
variable {pf : Platform}

/-- C185: one NaN makes the sum NaN, wherever it is. -/
theorem C185_nan (f g : GoFloat) (d e : Bool) (a : List Flt) (h : Flt.nan ∈ a) :
    sumAs pf { kind := .flt f, defined := e } { kind := .flt g, defined := d } a = Flt.nan := by
  rw [sumAs_fsum, fsum_mem_nan h]
  rfl

/-- C185: so do two infinities of different sign. -/
theorem C185_opposite (f g : GoFloat) (d e : Bool) (a : List Flt) (h1 : Flt.inf true ∈ a) (h2 : Flt.inf false ∈ a) :
    sumAs pf { kind := .flt f, defined := e } { kind := .flt g, defined := d } a = Flt.nan := by
  rw [sumAs_fsum, conv_nan_iff]
  rcases fsum_mem_inf (g := g) h1 (.fin 0) with h | h
  · rcases fsum_mem_inf (g := g) h2 (.fin 0) with h' | h'
    · rw [h] at h'; cases h'
    · exact h'
  · exact h

/-- C185: one infinity makes the sum that infinity or NaN. -/
theorem C185_infinity (f g : GoFloat) (d e : Bool) (s : Bool) (a : List Flt) (h : Flt.inf s ∈ a) :
    sumAs pf { kind := .flt f, defined := e } { kind := .flt g, defined := d } a = Flt.inf s ∨
      sumAs pf { kind := .flt f, defined := e } { kind := .flt g, defined := d } a = Flt.nan := by
  rw [sumAs_fsum]
  rcases fsum_mem_inf (g := g) h (.fin 0) with h | h
  · rw [h]; exact .inl rfl
  · rw [h]; exact .inr rfl

/-- C185: which of them, if there is no NaN and no infinity of the other sign: NaN if the sum of what precedes it overflowed to the other infinity, and the infinity otherwise. -/
theorem C185_infinity_exact (f g : GoFloat) (d e : Bool) (s : Bool) (p q : List Flt) (hv : ∀ x ∈ p ++ q, g.Value x) (hp : ∀ x ∈ p, x.Finite) (hn : Flt.nan ∉ q)
    (hi : Flt.inf (!s) ∉ q) :
    sumAs pf { kind := .flt f, defined := e } { kind := .flt g, defined := d } (p ++ Flt.inf s :: q) =
      if (sumAs pf { kind := .flt .float64, defined := e } { kind := .flt g, defined := d } p : Flt) = .inf (!s) then Flt.nan else Flt.inf s := by
  have hpn : fsum g p (.fin 0) ≠ .nan := fsum_finite (fun x hx => hv x (List.mem_append_left _ hx)) hp _ (fun h => nomatch h)
  have h64 : (NKind.conv pf (.flt .float64) (.flt .float64) (fsum g p (.fin 0)) = Flt.inf (!s)) ↔ fsum g p (.fin 0) = .inf (!s) := by
    rw [conv_value (fsum_value g p _ (zero_value _))]
  rw [sumAs_fsum, sumAs_fsum, fsum_append]
  have e1 : ∀ t, fsum g (Flt.inf s :: q) t = fsum g q (GoFloat.float64.add t (.inf s)) := fun t => rfl
  rw [e1, inf_add]
  by_cases hc : fsum g p (.fin 0) = .inf (!s)
  · rw [if_pos (.inl hc), if_pos (h64.2 hc), fsum_nan]
    rfl
  · rw [if_neg (by rintro (h | h); exact hc h; exact hpn h), if_neg (fun h => hc (h64.1 h)), fsum_stays (fun x hx => hv x (List.mem_append_right _ hx)) hn hi]
    rfl

/-- C185: the sum of finite values is not NaN, also if it overflows. -/
theorem C185_finite (f g : GoFloat) (d e : Bool) (a : List Flt) (hv : ∀ x ∈ a, g.Value x) (hf : ∀ x ∈ a, x.Finite) :
    sumAs pf { kind := .flt f, defined := e } { kind := .flt g, defined := d } a ≠ Flt.nan := by
  rw [sumAs_fsum]
  intro h
  exact fsum_finite hv hf (.fin 0) (fun h => nomatch h) ((conv_nan_iff _ _ _).1 h)

/-- C185: when a sum is NaN, exactly. -/
theorem C185_nan_iff (f g : GoFloat) (d e : Bool) (a : List Flt) (hv : ∀ x ∈ a, g.Value x) :
    sumAs pf { kind := .flt f, defined := e } { kind := .flt g, defined := d } a = Flt.nan ↔
      Flt.nan ∈ a ∨ (Flt.inf true ∈ a ∧ Flt.inf false ∈ a) ∨
        ∃ p s q, a = p ++ Flt.inf s :: q ∧ (∀ x ∈ p, x.Finite) ∧
          sumAs pf { kind := .flt .float64, defined := e } { kind := .flt g, defined := d } p = Flt.inf (!s) := by
  by_cases hn : Flt.nan ∈ a
  · exact ⟨fun _ => .inl hn, fun _ => C185_nan f g d e a hn⟩
  by_cases hb : Flt.inf true ∈ a ∧ Flt.inf false ∈ a
  · exact ⟨fun _ => .inr (.inl hb), fun _ => C185_opposite f g d e a hb.1 hb.2⟩
  have key : ∀ p s q, a = p ++ Flt.inf s :: q → (∀ x ∈ p, x.Finite) →
      sumAs pf { kind := .flt f, defined := e } { kind := .flt g, defined := d } a =
        if (sumAs pf { kind := .flt .float64, defined := e } { kind := .flt g, defined := d } p : Flt) = .inf (!s) then Flt.nan else Flt.inf s := by
    intro p s q ea hp
    subst ea
    refine C185_infinity_exact f g d e s p q (fun x hx => hv x ?_) hp (fun h => hn ?_) (fun h => hb ?_)
    · rcases List.mem_append.1 hx with h | h
      · exact List.mem_append_left _ h
      · exact List.mem_append_right _ (List.mem_cons_of_mem _ h)
    · exact List.mem_append_right _ (List.mem_cons_of_mem _ h)
    · have h1 : Flt.inf (!s) ∈ p ++ Flt.inf s :: q := List.mem_append_right _ (List.mem_cons_of_mem _ h)
      have h2 : Flt.inf s ∈ p ++ Flt.inf s :: q := List.mem_append_right _ List.mem_cons_self
      cases s
      · exact ⟨h1, h2⟩
      · exact ⟨h2, h1⟩
  constructor
  · intro h
    rcases first_special a with hf | ⟨p, x, q, ea, hp, hx⟩
    · exact absurd h (C185_finite f g d e a hv hf)
    · cases x with
      | fin z => exact absurd trivial hx
      | inf s =>
        rw [key p s q ea hp] at h
        refine .inr (.inr ⟨p, s, q, ea, hp, ?_⟩)
        apply Decidable.byContradiction
        intro hne
        rw [if_neg hne] at h
        exact nomatch h
      | nan => exact absurd (ea ▸ List.mem_append_right _ List.mem_cons_self) hn
  · rintro (h | h | ⟨p, s, q, ea, hp, h⟩)
    · exact absurd h hn
    · exact absurd h hb
    · rw [key p s q ea hp, if_pos h]

/-- C185: the average as `R` is NaN exactly if the sum as `R` is, and infinite if the sum is, with its sign. -/
theorem C185_averageAs (f g : GoFloat) (d e : Bool) (a : List Flt) (hne : a ≠ []) (hlen : a.length ≤ 2 ^ f.prec) :
    (averageAs pf { kind := .flt f, defined := e } { kind := .flt g, defined := d } a = .ret Flt.nan ↔
      sumAs pf { kind := .flt f, defined := e } { kind := .flt g, defined := d } a = Flt.nan) ∧
    ∀ s, sumAs pf { kind := .flt f, defined := e } { kind := .flt g, defined := d } a = Flt.inf s →
      averageAs pf { kind := .flt f, defined := e } { kind := .flt g, defined := d } a = .ret (Flt.inf s) := by
  have hl : f.ofUnits ((a.length : Int) * Flt.one) = Flt.ofInt a.length := f.ofUnits_int _ (by simpa using hlen)
  have e1 : averageAs pf { kind := .flt f, defined := e } { kind := .flt g, defined := d } a =
      .ret (f.div (sumAs pf { kind := .flt f, defined := e } { kind := .flt g, defined := d } a) (Flt.ofInt a.length)) := by
    rw [← hl]; rfl
  obtain ⟨h1, h2⟩ := div_len f (sumAs pf { kind := .flt f, defined := e } { kind := .flt g, defined := d } a) a.length (List.length_pos_iff.2 hne)
  rw [e1]
  refine ⟨⟨fun h => h1.1 (Outcome.ret.inj h), fun h => by rw [h1.2 h]⟩, fun s h => by rw [h2 s h]⟩

/-- C185: `Average` of a non-empty float slice is NaN exactly if `Sum` is. -/
theorem C185_average (g : GoFloat) (d : Bool) (a : List Flt) (hne : a ≠ []) (hlen : a.length ≤ 2 ^ (if d then g.prec else 53)) :
    average pf { kind := .flt g, defined := d } a = .ret Flt.nan ↔ sum pf { kind := .flt g, defined := d } a = Flt.nan := by
  cases d with
  | true =>
    have e : average pf { kind := .flt g, defined := true } a = averageAs pf { kind := .flt g, defined := true } { kind := .flt g, defined := true } a := by
      cases g <;> rfl
    rw [e]
    exact (C185_averageAs g g true true a hne hlen).1
  | false =>
    have e : average pf { kind := .flt g, defined := false } a =
        (averageAs pf { kind := .flt .float64, defined := false } { kind := .flt g, defined := false } a >>= fun r => pure (NKind.conv pf (.flt .float64) (.flt g) r)) := by
      cases g <;> rfl
    have h1 := (C185_averageAs (pf := pf) .float64 g false false a hne hlen).1
    have hs : sum pf { kind := .flt g, defined := false } a = Flt.nan ↔
        sumAs pf { kind := .flt .float64, defined := false } { kind := .flt g, defined := false } a = Flt.nan := by
      show sumAs pf { kind := .flt g, defined := false } { kind := .flt g, defined := false } a = Flt.nan ↔ _
      rw [sumAs_fsum, sumAs_fsum, conv_nan_iff, conv_nan_iff]
    obtain ⟨r, hr⟩ : ∃ r : Flt, averageAs pf { kind := .flt .float64, defined := false } { kind := .flt g, defined := false } a = .ret r := ⟨_, rfl⟩
    rw [e, hs, ← h1, hr]
    show Outcome.ret (NKind.conv pf (.flt .float64) (.flt g) r) = .ret Flt.nan ↔ _
    constructor
    · intro h; rw [(conv_nan_iff _ _ _).1 (Outcome.ret.inj h)]
    · intro h; rw [Outcome.ret.inj h]; rfl

/-- C185: an infinity in the slice makes the average that infinity or NaN. -/
theorem C185_average_infinity (g : GoFloat) (d : Bool) (s : Bool) (a : List Flt) (h : Flt.inf s ∈ a) (hlen : a.length ≤ 2 ^ (if d then g.prec else 53)) :
    average pf { kind := .flt g, defined := d } a = .ret (Flt.inf s) ∨ average pf { kind := .flt g, defined := d } a = .ret Flt.nan := by
  have hne : a ≠ [] := List.ne_nil_of_mem h
  cases d with
  | true =>
    have e : average pf { kind := .flt g, defined := true } a = averageAs pf { kind := .flt g, defined := true } { kind := .flt g, defined := true } a := by
      cases g <;> rfl
    obtain ⟨h1, h2⟩ := C185_averageAs (pf := pf) g g true true a hne hlen
    rw [e]
    rcases C185_infinity (pf := pf) g g true true s a h with h | h
    · exact .inl (h2 s h)
    · exact .inr (h1.2 h)
  | false =>
    have e : average pf { kind := .flt g, defined := false } a =
        (averageAs pf { kind := .flt .float64, defined := false } { kind := .flt g, defined := false } a >>= fun r => pure (NKind.conv pf (.flt .float64) (.flt g) r)) := by
      cases g <;> rfl
    obtain ⟨h1, h2⟩ := C185_averageAs (pf := pf) .float64 g false false a hne hlen
    rw [e]
    rcases C185_infinity (pf := pf) .float64 g false false s a h with h | h
    · rw [h2 s h]; exact .inl rfl
    · rw [h1.2 h]; exact .inr rfl

/-- The largest float64. -/
def bigFlt : Int := (2 ^ 53 - 1) * 2 ^ (971 + 1074)

/-- C185: so the order of the elements matters, for the sum and for the average: overflow is not undone, and an infinity may come too late. -/
theorem C185_order :
    sum pf64 (.flt .float64) [Flt.fin bigFlt, .fin (-bigFlt), .fin bigFlt] = Flt.fin bigFlt ∧
    sum pf64 (.flt .float64) [Flt.fin bigFlt, .fin bigFlt, .fin (-bigFlt)] = Flt.inf false ∧
    sum pf64 (.flt .float64) [Flt.inf false, .fin (-bigFlt), .fin (-bigFlt)] = Flt.inf false ∧
    sum pf64 (.flt .float64) [Flt.fin (-bigFlt), .fin (-bigFlt), .inf false] = Flt.nan ∧
    average pf64 (.flt .float64) [Flt.fin (-bigFlt), .fin (-bigFlt), .inf false] = .ret Flt.nan := by decide +kernel

/-- `bigFlt` is a value of the type, so the slices above are slices of float64. -/
example : ∀ x ∈ [Flt.fin (-bigFlt), .fin (-bigFlt), .inf false], GoFloat.float64.Value x := by
  have h : GoFloat.float64.Rep (-bigFlt) := ⟨by decide +kernel, 2 ^ 53 - 1, 971 + 1074, by decide +kernel, by decide, Nat.zero_le _⟩
  intro x hx
  simp only [List.mem_cons, List.not_mem_nil, or_false] at hx
  rcases hx with rfl | rfl | rfl
  · exact h
  · exact h
  · trivial

/-- Elements of type float32, and a defined type. -/
example : sum pf64 (.flt .float32) [Flt.fin 0, .inf true, .fin 0, .inf true] = Flt.inf true ∧
    sum pf64 { kind := .flt .float32, defined := true } [Flt.inf true, .fin 0, .inf false] = Flt.nan ∧
    average pf64 { kind := .flt .float32, defined := true } [Flt.inf true, .fin 0] = .ret (Flt.inf true) := by decide +kernel

end Stl4go
