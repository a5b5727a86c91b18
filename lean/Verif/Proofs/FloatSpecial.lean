import Verif.Spec.FloatSpecial
import Verif.Proofs.NumericFloat
import Verif.Proofs.NumericRound
import Verif.Proofs.FloatError
/-! # Lemmas about sums with infinities and NaN -/
namespace Stl4go
variable {pf : Platform}

/-- The loop of `SumAs` over floats. -/
def fsum (g : GoFloat) (a : List Flt) (t : Flt) : Flt := a.foldl (fun t x => GoFloat.float64.add t (NKind.conv ⟨64, fun _ _ => 0⟩ (.flt g) (.flt .float64) x)) t

theorem conv_flt (pf : Platform) (f g : GoFloat) (x : Flt) :
    NKind.conv pf (.flt f) (.flt g) x = (NKind.conv ⟨64, fun _ _ => 0⟩ (.flt f) (.flt g) x : Flt) := by
  cases x <;> rfl

theorem sumLoop_fsum (g : GoFloat) (a : List Flt) : ∀ t : Flt, sumLoop pf (.flt .float64) (.flt g) a t = fsum g a t := by
  induction a with
  | nil => intro t; rfl
  | cons x a ih =>
    intro t
    show sumLoop pf (.flt .float64) (.flt g) a (GoFloat.float64.add t (NKind.conv pf (.flt g) (.flt .float64) x)) = _
    rw [conv_flt pf g .float64 x, ih]
    rfl

theorem sumAs_fsum (f g : GoFloat) (d e : Bool) (a : List Flt) :
    sumAs pf { kind := .flt f, defined := e } { kind := .flt g, defined := d } a = NKind.conv pf (.flt .float64) (.flt f) (fsum g a (.fin 0)) := by
  rw [← sumLoop_fsum (pf := pf)]
  cases d <;> cases g <;> rfl

theorem conv_nan_iff (f g : GoFloat) (x : Flt) : NKind.conv pf (.flt f) (.flt g) x = Flt.nan ↔ x = .nan := by
  cases x with
  | fin z =>
    constructor
    · intro h
      have h : g.ofUnits z = Flt.nan := h
      unfold GoFloat.ofUnits GoFloat.round at h
      split at h <;> exact nomatch h
    · intro h; exact nomatch h
  | inf s => constructor <;> intro h <;> exact nomatch h
  | nan => exact ⟨fun _ => rfl, fun _ => rfl⟩

theorem conv_value {g : GoFloat} {x : Flt} (h : g.Value x) : (NKind.conv pf (.flt g) (.flt .float64) x : Flt) = x := by
  cases x with
  | fin z =>
    show GoFloat.float64.ofUnits z = _
    exact (GoFloat.Rep.to64 h).ofUnits
  | inf s => rfl
  | nan => rfl

theorem fsum_nan (g : GoFloat) (a : List Flt) : fsum g a .nan = .nan := by
  induction a with
  | nil => rfl
  | cons x a ih => exact ih

theorem add_nan (g : GoFloat) (t : Flt) : g.add t .nan = .nan := by cases t <;> rfl

theorem fsum_append (g : GoFloat) (a b : List Flt) (t : Flt) : fsum g (a ++ b) t = fsum g b (fsum g a t) := List.foldl_append

theorem fsum_mem_nan {g : GoFloat} {a : List Flt} (h : Flt.nan ∈ a) (t : Flt) : fsum g a t = .nan := by
  obtain ⟨p, q, rfl⟩ := List.append_of_mem h
  rw [fsum_append]
  show fsum g q (GoFloat.float64.add _ .nan) = _
  rw [add_nan, fsum_nan]

theorem add_inf (g : GoFloat) (s : Bool) (x : Flt) : g.add (.inf s) x = .inf s ∨ g.add (.inf s) x = .nan := by
  cases x with
  | fin z => exact .inl rfl
  | inf t => show (if s = t then Flt.inf s else .nan) = _ ∨ (if s = t then Flt.inf s else .nan) = _; split <;> simp
  | nan => exact .inr rfl

theorem fsum_inf (g : GoFloat) (s : Bool) (a : List Flt) : fsum g a (.inf s) = .inf s ∨ fsum g a (.inf s) = .nan := by
  induction a with
  | nil => exact .inl rfl
  | cons x a ih =>
    show fsum g a (GoFloat.float64.add (.inf s) _) = _ ∨ fsum g a (GoFloat.float64.add (.inf s) _) = _
    rcases add_inf .float64 s (NKind.conv ⟨64, fun _ _ => 0⟩ (.flt g) (.flt .float64) x) with e | e
    · rw [e]; exact ih
    · rw [e]; exact .inr (fsum_nan g a)

theorem inf_add (g : GoFloat) (s : Bool) (t : Flt) : g.add t (.inf s) = if t = .inf (!s) ∨ t = .nan then .nan else .inf s := by
  cases t with
  | fin z => rfl
  | inf u => cases u <;> cases s <;> rfl
  | nan => rfl

theorem fsum_mem_inf {g : GoFloat} {s : Bool} {a : List Flt} (h : Flt.inf s ∈ a) (t : Flt) : fsum g a t = .inf s ∨ fsum g a t = .nan := by
  obtain ⟨p, q, rfl⟩ := List.append_of_mem h
  rw [fsum_append]
  show fsum g q (GoFloat.float64.add _ (.inf s)) = _ ∨ fsum g q (GoFloat.float64.add _ (.inf s)) = _
  rw [inf_add]
  split
  · exact .inr (fsum_nan g q)
  · exact fsum_inf g s q

/-- Once infinite, the sum stays so unless the other infinity or NaN comes. -/
theorem fsum_stays {g : GoFloat} {s : Bool} : ∀ {a : List Flt}, (∀ x ∈ a, g.Value x) → Flt.nan ∉ a → Flt.inf (!s) ∉ a → fsum g a (.inf s) = .inf s := by
  intro a
  induction a with
  | nil => intros; rfl
  | cons x a ih =>
    intro hv hn hi
    show fsum g a (GoFloat.float64.add (.inf s) _) = _
    rw [conv_value (hv x List.mem_cons_self)]
    have : GoFloat.float64.add (.inf s) x = .inf s := by
      cases x with
      | fin z => rfl
      | inf t =>
        show (if s = t then Flt.inf s else .nan) = _
        rw [if_pos]
        apply Decidable.byContradiction
        intro h
        have : t = !s := by cases s <;> cases t <;> simp_all
        exact hi (this ▸ List.mem_cons_self)
      | nan => exact absurd List.mem_cons_self hn
    rw [this]
    exact ih (fun y hy => hv y (List.mem_cons_of_mem _ hy)) (fun h => hn (List.mem_cons_of_mem _ h)) (fun h => hi (List.mem_cons_of_mem _ h))

theorem ofUnits_ne_nan (g : GoFloat) (z : Int) : g.ofUnits z ≠ .nan := by
  intro h
  unfold GoFloat.ofUnits GoFloat.round at h
  split at h <;> exact nomatch h

theorem fsum_finite {g : GoFloat} : ∀ {a : List Flt}, (∀ x ∈ a, g.Value x) → (∀ x ∈ a, x.Finite) → ∀ t : Flt, t ≠ .nan → fsum g a t ≠ .nan := by
  intro a
  induction a with
  | nil => intro _ _ t ht; exact ht
  | cons x a ih =>
    intro hv hf t ht
    show fsum g a (GoFloat.float64.add t _) ≠ _
    rw [conv_value (hv x List.mem_cons_self)]
    refine ih (fun y hy => hv y (List.mem_cons_of_mem _ hy)) (fun y hy => hf y (List.mem_cons_of_mem _ hy)) _ ?_
    have := hf x List.mem_cons_self
    cases x with
    | fin z =>
      cases t with
      | fin u => exact ofUnits_ne_nan _ _
      | inf s => exact fun h => nomatch h
      | nan => exact absurd rfl ht
    | inf s => exact this.elim
    | nan => exact this.elim

theorem ofUnits_value (g : GoFloat) (z : Int) : g.Value (g.ofUnits z) := by
  by_cases h : roundFrac g.prec g.sub z.natAbs 1 < g.limit
  · rw [g.ofUnits_eq _ h]; exact rnd_rep h
  · unfold GoFloat.ofUnits GoFloat.round; rw [if_neg h]; exact trivial

theorem add_value (g : GoFloat) (t x : Flt) : g.Value (g.add t x) := by
  cases t with
  | fin a =>
    cases x with
    | fin b => exact ofUnits_value g (a + b)
    | inf s => exact trivial
    | nan => exact trivial
  | inf s =>
    cases x with
    | fin b => exact trivial
    | inf u =>
      show g.Value (if s = u then Flt.inf s else .nan)
      split <;> exact trivial
    | nan => exact trivial
  | nan => exact trivial

theorem fsum_value (g : GoFloat) (a : List Flt) : ∀ t : Flt, GoFloat.float64.Value t → GoFloat.float64.Value (fsum g a t) := by
  induction a with
  | nil => intro t h; exact h
  | cons x a ih => intro t _; exact ih _ (add_value _ _ _)

theorem zero_value (g : GoFloat) : g.Value (.fin 0) := by
  have h : 0 < g.limit := by cases g <;> exact Nat.two_pow_pos _
  exact ⟨h, 0, g.sub, by simp, Nat.two_pow_pos _, Nat.le_refl _⟩

/-- The first value of a slice that is not finite. -/
theorem first_special : ∀ a : List Flt, (∀ x ∈ a, x.Finite) ∨ ∃ p x q, a = p ++ x :: q ∧ (∀ y ∈ p, y.Finite) ∧ ¬ x.Finite := by
  intro a
  induction a with
  | nil => exact .inl (fun x h => nomatch h)
  | cons x a ih =>
    by_cases hx : x.Finite
    · rcases ih with h | ⟨p, y, q, rfl, hp, hy⟩
      · exact .inl (fun y hy => by rcases List.mem_cons.1 hy with rfl | hy; exact hx; exact h y hy)
      · exact .inr ⟨x :: p, y, q, rfl, fun z hz => by rcases List.mem_cons.1 hz with rfl | hz; exact hx; exact hp z hz, hy⟩
    · exact .inr ⟨[], x, a, rfl, (fun y h => nomatch h), hx⟩

theorem div_pos (f : GoFloat) (x : Flt) (b : Int) (hb : 0 < b) :
    (f.div x (.fin b) = .nan ↔ x = .nan) ∧ ∀ s, x = .inf s → f.div x (.fin b) = .inf s := by
  cases x with
  | fin z =>
    refine ⟨⟨fun h => ?_, (fun h => nomatch h)⟩, (fun s h => nomatch h)⟩
    simp only [GoFloat.div, if_neg (show b ≠ 0 by omega), GoFloat.round] at h
    split at h <;> exact nomatch h
  | inf s =>
    have e : f.div (.inf s) (.fin b) = .inf s := by
      simp only [GoFloat.div]
      rw [decide_eq_false (by omega)]
      cases s <;> rfl
    rw [e]
    exact ⟨⟨(fun h => nomatch h), (fun h => nomatch h)⟩, fun t h => h⟩
  | nan => exact ⟨⟨fun _ => rfl, fun _ => rfl⟩, (fun s h => nomatch h)⟩

theorem div_len (f : GoFloat) (x : Flt) (n : Nat) (hn : 0 < n) :
    (f.div x (Flt.ofInt n) = .nan ↔ x = .nan) ∧ ∀ s, x = .inf s → f.div x (Flt.ofInt n) = .inf s :=
  div_pos f x _ (Int.mul_pos (by omega) Flt.one_pos)

end Stl4go
