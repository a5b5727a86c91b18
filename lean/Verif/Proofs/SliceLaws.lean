import Verif.Props.Transform
import Verif.Props.Sort
import Verif.Spec.SliceLaws
/-! # Lemmas for C162: calls one after another on the same slice -/
namespace Stl4go
variable {T σ τ : Type}

theorem mapS_mapS {R S : Type} (f : σ → T → σ × R) (g : τ → R → τ × S) (l : List T) : ∀ (s : σ) (t : τ),
    mapS g t (mapS f s l).2 = ((mapS (fun (u : σ × τ) x => (((f u.1 x).1, (g u.2 (f u.1 x).2).1), (g u.2 (f u.1 x).2).2)) (s, t) l).1.2,
      (mapS (fun (u : σ × τ) x => (((f u.1 x).1, (g u.2 (f u.1 x).2).1), (g u.2 (f u.1 x).2).2)) (s, t) l).2) ∧
    (mapS (fun (u : σ × τ) x => (((f u.1 x).1, (g u.2 (f u.1 x).2).1), (g u.2 (f u.1 x).2).2)) (s, t) l).1.1 = (mapS f s l).1 := by
  induction l with
  | nil => intro s t; exact ⟨rfl, rfl⟩
  | cons x l ih =>
    intro s t
    obtain ⟨h1, h2⟩ := ih (f s x).1 (g t (f s x).2).1
    refine ⟨?_, ?_⟩
    · simp only [mapS, h1]
    · simp only [mapS, h2]

theorem rejectS_rejectS (f : σ → T → σ × Bool) (g : τ → T → τ × Bool) (l : List T) : ∀ (s : σ) (t : τ),
    rejectS g t (rejectS f s l).2 = ((rejectS (fun (u : σ × τ) x => if (f u.1 x).2 then (((f u.1 x).1, u.2), true) else
      (((f u.1 x).1, (g u.2 x).1), (g u.2 x).2)) (s, t) l).1.2,
      (rejectS (fun (u : σ × τ) x => if (f u.1 x).2 then (((f u.1 x).1, u.2), true) else (((f u.1 x).1, (g u.2 x).1), (g u.2 x).2)) (s, t) l).2) ∧
    (rejectS (fun (u : σ × τ) x => if (f u.1 x).2 then (((f u.1 x).1, u.2), true) else (((f u.1 x).1, (g u.2 x).1), (g u.2 x).2)) (s, t) l).1.1 =
      (rejectS f s l).1 := by
  induction l with
  | nil => intro s t; exact ⟨rfl, rfl⟩
  | cons x l ih =>
    intro s t
    by_cases hf : (f s x).2 = true
    · obtain ⟨h1, h2⟩ := ih (f s x).1 t
      simp only [rejectS, hf, if_true]
      exact ⟨h1, h2⟩
    · by_cases hg : (g t x).2 = true
      · obtain ⟨h1, h2⟩ := ih (f s x).1 (g t x).1
        simp only [rejectS, if_neg hf, hg, if_true]
        exact ⟨h1, h2⟩
      · obtain ⟨h1, h2⟩ := ih (f s x).1 (g t x).1
        simp only [rejectS, if_neg hf, if_neg hg, h1, h2, and_self]

/-- Neighbours among the starts of runs differ. -/
theorem starts_idem [GoEq T] (hE : PartialEq T) (s : List T) : ∀ p q : T, (∀ x, GoEq.eq p x = GoEq.eq q x) → starts p (starts q s) = starts q s := by
  induction s with
  | nil => intro p q _; rfl
  | cons x s ih =>
    intro p q hpq
    simp only [starts]
    split
    · rename_i h
      -- `x` is equal to `q`, so they have the same equals
      refine ih p x (fun y => ?_)
      rw [hpq y]
      rcases Bool.eq_false_or_eq_true (GoEq.eq q y) with h1 | h1
      · rw [h1, hE.trans _ _ _ (hE.symm _ _ h) h1]
      · rcases Bool.eq_false_or_eq_true (GoEq.eq x y) with h2 | h2
        · rw [hE.trans _ _ _ h h2] at h1; cases h1
        · rw [h1, h2]
    · rename_i h
      simp only [starts]
      rw [if_neg (by rw [hpq]; exact h), ih x x (fun _ => rfl)]

theorem collapse_idem [GoEq T] (hE : PartialEq T) (l : List T) : collapse (collapse l) = collapse l := by
  cases l with
  | nil => rfl
  | cons x s => simp only [collapse]; rw [starts_idem hE s x x (fun _ => rfl)]

theorem sortedStably_of_sorted {less : T → T → Bool} (hw : StrictWeak less) {l : List T} (h : SortedBy less l) : sortedStably less l = l :=
  (stable_eq hw h (fun _ => rfl)).symm

/-- Memory with the same top and the same cells, told apart by a slice and the rest. -/
theorem OnlyIn.same {m m' m'' : Mem T} {a : Sl} (h1 : OnlyIn m m' a) (h2 : OnlyIn m m'' a) (h : a.read m' = a.read m'') : m' = m'' := by
  refine Mem.ext' (fun k => ?_) (h1.1.trans h2.1.symm)
  by_cases hk : k < a.off ∨ a.off + a.len ≤ k
  · rw [h1.2 k hk, h2.2 k hk]
  · have e1 := Sl.read_getElem? m' a (k - a.off)
    have e2 := Sl.read_getElem? m'' a (k - a.off)
    rw [if_pos (by omega)] at e1 e2
    rw [h, e2, show a.off + (k - a.off) = k by omega] at e1
    exact (Option.some.inj e1).symm

theorem OnlyIn.refl (m : Mem T) (a : Sl) : OnlyIn m m a := ⟨rfl, fun _ _ => rfl⟩

theorem OnlyIn.andThen {m m' m'' : Mem T} {a : Sl} (h1 : OnlyIn m m' a) (h2 : OnlyIn m' m'' a) : OnlyIn m m'' a :=
  ⟨h2.1.trans h1.1, fun k hk => (h2.2 k hk).trans (h1.2 k hk)⟩

theorem rejectS_length (f : σ → T → σ × Bool) (l : List T) : ∀ s, (rejectS f s l).2.length ≤ l.length := by
  induction l with
  | nil => intro s; exact Nat.le_refl _
  | cons x l ih =>
    intro s
    simp only [rejectS]
    split
    · exact Nat.le_succ_of_le (ih _)
    · exact Nat.succ_le_succ (ih _)

theorem starts_length [GoEq T] (l : List T) : ∀ p, (starts p l).length ≤ l.length := by
  induction l with
  | nil => intro p; exact Nat.le_refl _
  | cons x l ih =>
    intro p
    simp only [starts]
    split
    · exact Nat.le_succ_of_le (ih _)
    · exact Nat.succ_le_succ (ih _)

theorem collapse_length_le [GoEq T] (l : List T) : (collapse l).length ≤ l.length := by
  cases l with
  | nil => exact Nat.le_refl _
  | cons x l => exact Nat.succ_le_succ (starts_length l x)

theorem sum_perm {l l' : List Int} (h : l.Perm l') : l.sum = l'.sum := by
  induction h with
  | nil => rfl
  | cons x _ ih => rw [List.sum_cons, List.sum_cons, ih]
  | swap x y l => simp only [List.sum_cons]; omega
  | trans _ _ h1 h2 => exact h1.trans h2

/-! ## Sorting by two criteria -/

variable {less1 less2 : T → T → Bool}

theorem thenBy_equiv (x y : T) : (!thenBy less1 less2 x y && !thenBy less1 less2 y x) =
    ((!less1 x y && !less1 y x) && (!less2 x y && !less2 y x)) := by
  unfold thenBy
  cases less1 x y <;> cases less1 y x <;> cases less2 x y <;> cases less2 y x <;> rfl

theorem thenBy_true {x y : T} : thenBy less1 less2 x y = true ↔ less1 x y = true ∨ (less1 y x = false ∧ less2 x y = true) := by
  unfold thenBy
  cases less1 x y <;> cases less1 y x <;> cases less2 x y <;> simp

theorem thenBy_weak (h1 : StrictWeak less1) (h2 : StrictWeak less2) : StrictWeak (thenBy less1 less2) where
  irrefl a := by simp [thenBy, h1.irrefl, h2.irrefl]
  trans a b c := by
    rw [thenBy_true, thenBy_true, thenBy_true]
    -- a step of the first order and an equivalence is a step
    have mixL : ∀ a b c, less1 a b = true → less1 c b = false → less1 a c = true := by
      intro a b c hab hcb
      rcases Bool.eq_false_or_eq_true (less1 a c) with h | h
      · exact h
      rcases Bool.eq_false_or_eq_true (less1 c a) with h' | h'
      · rw [h1.trans _ _ _ h' hab] at hcb; cases hcb
      rcases Bool.eq_false_or_eq_true (less1 b c) with h3 | h3
      · rw [h1.trans _ _ _ hab h3] at h; cases h
      rw [h1.incomp a c b h h' hcb h3] at hab; cases hab
    have mixR : ∀ a b c, less1 b a = false → less1 b c = true → less1 a c = true := by
      intro a b c hba hbc
      rcases Bool.eq_false_or_eq_true (less1 a c) with h | h
      · exact h
      rcases Bool.eq_false_or_eq_true (less1 c a) with h' | h'
      · rw [h1.trans _ _ _ hbc h'] at hba; cases hba
      rcases Bool.eq_false_or_eq_true (less1 a b) with h3 | h3
      · rw [h1.trans _ _ _ h3 hbc] at h; cases h
      rw [h1.incomp b a c hba h3 h h'] at hbc; cases hbc
    rintro (ab | ⟨ba, ab⟩) (bc | ⟨cb, bc⟩)
    · exact .inl (h1.trans _ _ _ ab bc)
    · exact .inl (mixL _ _ _ ab cb)
    · exact .inl (mixR _ _ _ ba bc)
    · rcases Bool.eq_false_or_eq_true (less1 a c) with h | h
      · exact .inl h
      refine .inr ⟨?_, h2.trans _ _ _ ab bc⟩
      rcases Bool.eq_false_or_eq_true (less1 c a) with h' | h'
      · rw [mixL _ _ _ h' ba] at cb; cases cb
      · exact h'
  incomp a b c hab hba hbc hcb := by
    have e1 : (!thenBy less1 less2 a b && !thenBy less1 less2 b a) = true := by rw [hab, hba]; rfl
    have e2 : (!thenBy less1 less2 b c && !thenBy less1 less2 c b) = true := by rw [hbc, hcb]; rfl
    rw [thenBy_equiv] at e1 e2
    simp only [Bool.and_eq_true, Bool.not_eq_true'] at e1 e2
    have h := h1.incomp a b c e1.1.1 e1.1.2 e2.1.1 e2.1.2
    have h' := h2.incomp a b c e1.2.1 e1.2.2 e2.2.1 e2.2.2
    simp [thenBy, h, h']

theorem stably_thenBy (h1 : StrictWeak less1) (h2 : StrictWeak less2) (l : List T) :
    sortedStably less1 (sortedStably less2 l) = sortedStably (thenBy less1 less2) l := by
  obtain ⟨s2, k2, _⟩ := sortedStably_spec h2 l
  obtain ⟨s1, k1, _⟩ := sortedStably_spec h1 (sortedStably less2 l)
  refine stable_eq (thenBy_weak h1 h2) ?_ ?_
  · rw [sortedBy_pairwise] at s1 s2 ⊢
    have hx : ∀ x, ((sortedStably less1 (sortedStably less2 l)).filter (fun y => !less1 x y && !less1 y x)).Pairwise (fun x y => less2 y x = false) := by
      intro x
      rw [k1 x]
      exact s2.sublist List.filter_sublist
    rw [List.pairwise_iff_forall_sublist] at s1 ⊢
    intro x y hxy
    have h := s1 hxy
    rcases Bool.eq_false_or_eq_true (less1 x y) with h' | h'
    · simp [thenBy, h, h']
    · have hs := hxy.filter (fun z => !less1 x z && !less1 z x)
      rw [List.filter_cons_of_pos (by simp [h1.irrefl]), List.filter_cons_of_pos (by simp [h, h']), List.filter_nil] at hs
      have := (List.pairwise_iff_forall_sublist.1 (hx x)) hs
      simp [thenBy, h, this]
  · intro x
    simp only [thenBy_equiv]
    have swap : ∀ (p q : T → Bool) (l : List T), l.filter (fun y => p y && q y) = (l.filter p).filter q := by
      intro p q l; rw [List.filter_filter]; congr 1; funext y; rw [Bool.and_comm]
    rw [swap (fun y => !less1 x y && !less1 y x) (fun y => !less2 x y && !less2 y x), k1 x, List.filter_filter,
      swap (fun y => !less1 x y && !less1 y x) (fun y => !less2 x y && !less2 y x) l, List.filter_filter]
    have e : ∀ l : List T, l.filter (fun a => (!less2 x a && !less2 a x) && (!less1 x a && !less1 a x)) =
        (l.filter (fun a => !less2 x a && !less2 a x)).filter (fun a => !less1 x a && !less1 a x) := fun l => swap _ _ l
    rw [e, e, k2 x]

end Stl4go
