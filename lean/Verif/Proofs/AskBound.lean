import Verif.Spec.AskBound
import Verif.Proofs.SortBound
import Verif.Proofs.HeapAny
/-! # Lemmas: what can be found out with how many comparisons -/
namespace Stl4go
variable {T α : Type}

/-- The elements at the positions of class `c` moved down by `2 * B`. -/
def sunk (f : Nat → Nat) (c : Nat) (B : Int) (xs : List Int) : List Int := xs.mapIdx fun k x => if f k = c then x - 2 * B else x

theorem sunk_get (f : Nat → Nat) (c : Nat) (B : Int) (xs : List Int) (k : Nat) : (sunk f c B xs)[k]? = xs[k]?.map fun x => if f k = c then x - 2 * B else x := by
  simp [sunk, List.getElem?_mapIdx]

theorem exists_bound : ∀ xs : List Int, ∃ B : Int, ∀ x ∈ xs, -B < x ∧ x < B
  | [] => ⟨0, fun _ h => nomatch h⟩
  | x :: xs => by
    obtain ⟨B, h⟩ := exists_bound xs
    refine ⟨max B (x.natAbs + 1), fun y hy => ?_⟩
    rcases List.mem_cons.1 hy with rfl | hy
    · omega
    · have := h y hy; omega

theorem AskProg.run_sunk (f : Nat → Nat) (c : Nat) (B : Int) (xs : List Int) (p : AskProg α) : ∀ {r : α} {E : List (Nat × Nat)}, p.run intLess xs = some (r, E) →
    (∀ q ∈ E, f q.1 = f q.2) → p.run intLess (sunk f c B xs) = some (r, E) := by
  induction p with
  | ret a => intro r E h _; exact h
  | ask i j k ih =>
    intro r E h hE
    simp only [AskProg.run] at h ⊢
    rw [sunk_get, sunk_get]
    cases hx : xs[i]? with
    | none => rw [hx] at h; simp at h
    | some x =>
      cases hy : xs[j]? with
      | none => rw [hx, hy] at h; simp at h
      | some y =>
        rw [hx, hy] at h
        simp only [Option.map_eq_some_iff] at h
        obtain ⟨⟨r', E'⟩, h, e⟩ := h
        cases e
        have hij : f i = f j := hE (i, j) (by simp)
        have hl : intLess (if f i = c then x - 2 * B else x) (if f j = c then y - 2 * B else y) = intLess x y := by
          rw [← hij]
          unfold intLess
          split <;> simp
        simp only [Option.map_some, hl]
        rw [ih _ h (fun q hq => hE q (by simp [hq]))]
        rfl

/-- With too few comparisons there are two classes of positions that were not compared with each other; either may be moved below the other without a difference in the answers. -/
theorem AskProg.fooled {p : AskProg α} {xs : List Int} (hn : xs.Nodup) {r : α} {E : List (Nat × Nat)} (h : p.run intLess xs = some (r, E)) (hE : E.length + 1 < xs.length) :
    ∃ f : Nat → Nat, (∃ i j, i < xs.length ∧ j < xs.length ∧ f i ≠ f j) ∧ ∀ c, ∃ ys : List Int, ys.length = xs.length ∧ ys.Nodup ∧ p.run intLess ys = some (r, E) ∧
      ∀ a b x y, f a = c → f b ≠ c → ys[a]? = some x → ys[b]? = some y → x < y := by
  obtain ⟨f, h1, h2⟩ := exists_apart hE
  obtain ⟨B, hB⟩ := exists_bound xs
  refine ⟨f, h2, fun c => ⟨sunk f c B xs, by simp [sunk], ?_, AskProg.run_sunk f c B xs p h h1, ?_⟩⟩
  · rw [List.Nodup, List.pairwise_iff_getElem]
    intro i j hi hj hij
    have hi' : i < xs.length := by simpa [sunk] using hi
    have hj' : j < xs.length := by simpa [sunk] using hj
    have hne : xs[i] ≠ xs[j] := by
      rw [List.Nodup, List.pairwise_iff_getElem] at hn
      exact hn i j hi' hj' hij
    have b1 := hB _ (List.getElem_mem hi')
    have b2 := hB _ (List.getElem_mem hj')
    simp only [sunk, List.getElem_mapIdx]
    split <;> split <;> omega
  · intro a b x y ha hb hx hy
    rw [sunk_get] at hx hy
    simp only [Option.map_eq_some_iff] at hx hy
    obtain ⟨x', hx, rfl⟩ := hx
    obtain ⟨y', hy, rfl⟩ := hy
    rw [if_pos ha, if_neg hb]
    have b1 := hB _ (List.mem_of_getElem? hx)
    have b2 := hB _ (List.mem_of_getElem? hy)
    omega

theorem other_class {n : Nat} {f : Nat → Nat} (h : ∃ i j, i < n ∧ j < n ∧ f i ≠ f j) (r : Nat) : ∃ i, i < n ∧ f i ≠ f r := by
  obtain ⟨i, j, hi, hj, hij⟩ := h
  by_cases e : f i = f r
  · exact ⟨j, hj, fun e' => hij (e.trans e'.symm)⟩
  · exact ⟨i, hi, e⟩

theorem tree_class {n : Nat} {f : Nat → Nat} (h : ∃ i j, i < n ∧ j < n ∧ f i ≠ f j) : ∃ c, 0 < c ∧ c < n ∧ f c ≠ f ((c - 1) / 2) := by
  obtain ⟨i, j, hi, hj, hij⟩ := h
  by_contra hno
  have hall : ∀ c, c < n → f c = f 0 := by
    intro c
    induction c using Nat.strongRecOn with
    | _ c ih =>
      intro hc
      by_cases h0 : c = 0
      · rw [h0]
      · have : f c = f ((c - 1) / 2) := by
          by_contra hf
          exact hno ⟨c, by omega, hc, hf⟩
        rw [this]
        exact ih _ (by omega) (by omega)
  exact hij ((hall i hi).trans (hall j hj).symm)

/-! ## Both extremes -/

theorem AskProg.run_ask (l : T → T → Bool) (xs : List T) (i j : Nat) (k : Bool → AskProg α) {x y : T} (hx : xs[i]? = some x) (hy : xs[j]? = some y) :
    (AskProg.ask i j k).run l xs = ((k (l x y)).run l xs).map fun q => (q.1, (i, j) :: q.2) := by
  simp only [AskProg.run, hx, hy]

theorem minMaxFrom_run (xs : List Int) : ∀ (rem k lo hi : Nat), k + rem = xs.length → lo < k → hi < k →
    (∀ i, i < k → xs.getD lo 0 ≤ xs.getD i 0 ∧ xs.getD i 0 ≤ xs.getD hi 0) →
    ∃ r E, (minMaxFrom rem k lo hi).run intLess xs = some (r, E) ∧ r.1 < xs.length ∧ r.2 < xs.length ∧
      (∀ i, i < xs.length → xs.getD r.1 0 ≤ xs.getD i 0 ∧ xs.getD i 0 ≤ xs.getD r.2 0) ∧ E.length = 3 * (rem / 2) + 2 * (rem % 2)
  | 0, k, lo, hi, hk, h1, h2, h => ⟨(lo, hi), [], rfl, by show lo < _; omega, by show hi < _; omega, fun i hi => h i (by omega), rfl⟩
  | 1, k, lo, hi, hk, h1, h2, h => by
    have g : ∀ i, i < xs.length → xs[i]? = some (xs.getD i 0) := fun i hi => by simp [hi]
    unfold minMaxFrom
    rw [AskProg.run_ask _ _ _ _ _ (g k (by omega)) (g lo (by omega)), AskProg.run_ask _ _ _ _ _ (g hi (by omega)) (g k (by omega))]
    refine ⟨_, _, rfl, ?_, ?_, ?_, rfl⟩
    · show (if _ then k else lo) < _
      split <;> omega
    · show (if _ then k else hi) < _
      split <;> omega
    · intro i hi'
      have hlo := h lo h1
      show xs.getD (if _ then k else lo) 0 ≤ _ ∧ _ ≤ xs.getD (if _ then k else hi) 0
      simp only [intLess, decide_eq_true_eq]
      by_cases e : i = k
      · subst e
        constructor <;> split <;> omega
      · have := h i (by omega)
        constructor <;> split <;> omega
  | rem + 2, k, lo, hi, hk, h1, h2, h => by
    have g : ∀ i, i < xs.length → xs[i]? = some (xs.getD i 0) := fun i hi => by simp [hi]
    unfold minMaxFrom
    rw [AskProg.run_ask _ _ _ _ _ (g (k + 1) (by omega)) (g k (by omega))]
    have hs : ∀ b : Bool, (if b then k + 1 else k) < xs.length := fun b => by split <;> omega
    have hg : ∀ b : Bool, (if b then k else k + 1) < xs.length := fun b => by split <;> omega
    rw [AskProg.run_ask _ _ _ _ _ (g _ (hs _)) (g lo (by omega)), AskProg.run_ask _ _ _ _ _ (g hi (by omega)) (g _ (hg _))]
    have hlo := h lo h1
    obtain ⟨r, E, e, a1, a2, a3, a4⟩ := minMaxFrom_run xs rem (k + 2)
      (if intLess (xs.getD (if intLess (xs.getD (k + 1) 0) (xs.getD k 0) then k + 1 else k) 0) (xs.getD lo 0) then (if intLess (xs.getD (k + 1) 0) (xs.getD k 0) then k + 1 else k) else lo)
      (if intLess (xs.getD hi 0) (xs.getD (if intLess (xs.getD (k + 1) 0) (xs.getD k 0) then k else k + 1) 0) then (if intLess (xs.getD (k + 1) 0) (xs.getD k 0) then k else k + 1) else hi)
      (by omega) (by (repeat' split) <;> omega) (by (repeat' split) <;> omega) (by
        intro i hi'
        simp only [intLess, decide_eq_true_eq]
        by_cases hb : xs.getD (k + 1) 0 < xs.getD k 0
        · simp only [hb, if_true]
          by_cases e : i = k
          · subst e
            constructor <;> split <;> omega
          · by_cases e : i = k + 1
            · subst e
              constructor <;> split <;> omega
            · have := h i (by omega)
              constructor <;> split <;> omega
        · simp only [hb, if_false]
          by_cases e : i = k
          · subst e
            constructor <;> split <;> omega
          · by_cases e : i = k + 1
            · subst e
              constructor <;> split <;> omega
            · have := h i (by omega)
              constructor <;> split <;> omega)
    rw [e]
    refine ⟨r, _, rfl, a1, a2, a3, ?_⟩
    simp only [List.length_cons, a4]
    omega

/-! ## Programs that do it -/

theorem bestFrom_run (xs : List Int) (least : Bool) : ∀ (rem k best : Nat), k + rem = xs.length → best < k →
    (∀ i, i < k → if least then xs.getD best 0 ≤ xs.getD i 0 else xs.getD i 0 ≤ xs.getD best 0) →
    ∃ r E, (bestFrom least rem k best).run intLess xs = some (r, E) ∧ r < xs.length ∧
      (∀ i, i < xs.length → if least then xs.getD r 0 ≤ xs.getD i 0 else xs.getD i 0 ≤ xs.getD r 0) ∧ E.length = rem := by
  have g : ∀ i, i < xs.length → xs[i]? = some (xs.getD i 0) := fun i hi => by simp [hi]
  intro rem
  induction rem with
  | zero => intro k best hk h1 h; exact ⟨best, [], rfl, by omega, fun i hi => h i (by omega), rfl⟩
  | succ rem ih =>
    intro k best hk h1 h
    unfold bestFrom
    rw [AskProg.run_ask _ _ _ _ _ (g _ (by split <;> omega)) (g _ (by split <;> omega))]
    have hb := h best h1
    obtain ⟨r, E, e, a1, a2, a3⟩ := ih (k + 1) (if intLess (xs.getD (if least then k else best) 0) (xs.getD (if least then best else k) 0) then k else best) (by omega)
      (by (repeat' split) <;> omega) (by
        intro i hi
        cases least with
        | true =>
          simp only [if_true, intLess, decide_eq_true_eq] at h ⊢
          by_cases e : i = k
          · subst e; split <;> omega
          · have := h i (by omega)
            split <;> omega
        | false =>
          simp only [Bool.false_eq_true, if_false, intLess, decide_eq_true_eq] at h ⊢
          by_cases e : i = k
          · subst e; split <;> omega
          · have := h i (by omega)
            split <;> omega)
    rw [e]
    exact ⟨r, _, rfl, a1, a2, by simp [a3]⟩

theorem sortedFrom_run (xs : List Int) : ∀ (rem k : Nat), k + 1 + rem = xs.length → (∀ i, i < k → xs.getD i 0 < xs.getD (i + 1) 0) →
    ∃ b E, (sortedFrom rem k).run intLess xs = some (b, E) ∧ (b = true ↔ ∀ i, i + 1 < xs.length → xs.getD i 0 < xs.getD (i + 1) 0) := by
  have g : ∀ i, i < xs.length → xs[i]? = some (xs.getD i 0) := fun i hi => by simp [hi]
  intro rem
  induction rem with
  | zero => intro k hk h; exact ⟨true, [], rfl, fun _ i hi => h i (by omega), fun _ => rfl⟩
  | succ rem ih =>
    intro k hk h
    unfold sortedFrom
    rw [AskProg.run_ask _ _ _ _ _ (g _ (by omega)) (g _ (by omega))]
    by_cases hb : xs.getD k 0 < xs.getD (k + 1) 0
    · obtain ⟨b, E, e, hs⟩ := ih (k + 1) (by omega) (fun i hi => by
        by_cases e : i = k
        · subst e; exact hb
        · exact h i (by omega))
      rw [show intLess (xs.getD k 0) (xs.getD (k + 1) 0) = true from decide_eq_true hb]
      simp only [if_true]
      rw [e]
      exact ⟨b, _, rfl, hs⟩
    · rw [show intLess (xs.getD k 0) (xs.getD (k + 1) 0) = false from decide_eq_false hb]
      exact ⟨false, _, rfl, (fun h => nomatch h), fun h => absurd (h k (by omega)) hb⟩

theorem heapFrom_run (xs : List Int) : ∀ (rem c : Nat), 0 < c → c + rem = xs.length → (∀ i, 0 < i → i < c → ¬ xs.getD i 0 < xs.getD ((i - 1) / 2) 0) →
    ∃ b E, (heapFrom rem c).run intLess xs = some (b, E) ∧ (b = true ↔ ∀ i, 0 < i → i < xs.length → ¬ xs.getD i 0 < xs.getD ((i - 1) / 2) 0) := by
  have g : ∀ i, i < xs.length → xs[i]? = some (xs.getD i 0) := fun i hi => by simp [hi]
  intro rem
  induction rem with
  | zero => intro c h0 hc h; exact ⟨true, [], rfl, fun _ i h1 hi => h i h1 (by omega), fun _ => rfl⟩
  | succ rem ih =>
    intro c h0 hc h
    unfold heapFrom
    rw [AskProg.run_ask _ _ _ _ _ (g _ (by omega)) (g _ (by omega))]
    by_cases hb : xs.getD c 0 < xs.getD ((c - 1) / 2) 0
    · have hb' : intLess (xs.getD c 0) (xs.getD ((c - 1) / 2) 0) = true := decide_eq_true hb
      rw [hb']
      exact ⟨false, _, rfl, (fun h => nomatch h), fun h => absurd hb (h c h0 (by omega))⟩
    · have hb' : intLess (xs.getD c 0) (xs.getD ((c - 1) / 2) 0) = false := decide_eq_false hb
      obtain ⟨b, E, e, hs⟩ := ih (c + 1) (by omega) (by omega) (fun i h1 hi => by
        by_cases e : i = c
        · subst e; exact hb
        · exact h i h1 (by omega))
      rw [hb']
      simp only [Bool.false_eq_true, if_false]
      rw [e]
      exact ⟨b, _, rfl, hs⟩

theorem ascending_of_next (xs : List Int) (h : ∀ i, i + 1 < xs.length → xs.getD i 0 < xs.getD (i + 1) 0) : xs.Pairwise (· < ·) := by
  rw [List.pairwise_iff_getElem]
  have key : ∀ d i, i + d + 1 < xs.length → xs.getD i 0 < xs.getD (i + d + 1) 0 := by
    intro d
    induction d with
    | zero => intro i hi; exact h i hi
    | succ d ih =>
      intro i hi
      have h1 := ih i (by omega)
      have h2 := h (i + d + 1) (by omega)
      rw [show i + (d + 1) + 1 = i + d + 1 + 1 by omega]
      omega
  intro i j hi hj hij
  have := key (j - i - 1) i (by omega)
  rw [show i + (j - i - 1) + 1 = j by omega] at this
  simpa [hi, hj] using this

/-! ## The functions of the library -/

theorem visit_comparisons {S : Type} (e : Nat → S → Look T) (e' : Nat → S → Look T) (he : ∀ i v, (e i v).isRead = true) (he' : ∀ i v, (e' i v).isRead = false) (l : List S) (k : Nat) :
    comparisons (visit (fun i v => [e i v, e' i v]) l k) ≤ l.length := by
  have aux : ∀ (m : List (S × Nat)), comparisons (m.flatMap fun v => [e v.2 v.1, e' v.2 v.1]) = m.length := by
    intro m
    induction m with
    | nil => rfl
    | cons v m ih =>
      unfold comparisons at ih ⊢
      simp only [List.flatMap_cons, List.filter_append, List.length_append, ih, List.length_cons]
      simp [he, he']
      omega
  unfold visit
  rw [aux]
  simp

theorem isHeapFuncLoopA_calls {a : Sl} (l : T → T → Bool) : ∀ (rem child parent : Nat) (s : HS T Nat), child + rem ≤ a.len → parent < child →
    ∃ b c, isHeapFuncLoopA a (countedLess l) rem child parent s = .ok b { s with st := s.st + c } ∧ c ≤ rem := by
  intro rem
  induction rem with
  | zero => intro child parent s _ _; exact ⟨true, 0, rfl, Nat.le_refl _⟩
  | succ rem ih =>
    intro child parent s h1 h2
    unfold isHeapFuncLoopA
    simp only [GoM.bind_def]
    rw [HS.on_get (by omega)]
    simp only []
    rw [HS.on_get (by omega)]
    simp only [countedLess]
    cases l (s.mem.cell (a.off + parent)) (s.mem.cell (a.off + child)) with
    | false => exact ⟨false, 1, rfl, by omega⟩
    | true =>
      obtain ⟨b, c, e, hc⟩ := ih (child + 1) (if child % 2 = 0 then parent + 1 else parent) { s with st := s.st + 1 } (by omega) (by split <;> omega)
      refine ⟨b, c + 1, ?_, by omega⟩
      simp only [Bool.not_true, Bool.false_eq_true, if_false]
      refine e.trans ?_
      rw [Nat.add_assoc s.st, Nat.add_comm 1]

end Stl4go
