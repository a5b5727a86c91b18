import Verif.Spec.FoundBound
import Verif.Proofs.SearchBound
/-! # Proofs: how many comparisons it takes to tell whether a value is there -/
namespace Stl4go
variable {T : Type}

/-- The answers that a search gets. -/
def SearchProg.answers (l : T → T → Bool) (xs : List T) (v : T) : SearchProg → List Bool
  | .found _ => []
  | .ask x y k =>
    match x.elim (some v) (xs[·]?), y.elim (some v) (xs[·]?) with
    | some a, some b => l a b :: (k (l a b)).answers l xs v
    | _, _ => []

/-- A search that asks at most `d` questions can tell at most `2^d` values from each other. -/
theorem SearchProg.few_leaves (l : T → T → Bool) (xs : List T) (p : SearchProg) : ∀ (d : Nat) (S : List T), (S.map fun v => p.answers l xs v).Nodup →
    (∀ v ∈ S, ∃ r c, p.run l xs v = some (r, c) ∧ c ≤ d) → S.length ≤ 2 ^ d := by
  induction p with
  | found r0 =>
    intro d S hn _
    have h2 : S.length ≤ 1 := by
      match S, hn with
      | [], _ => simp
      | [_], _ => simp
      | x :: y :: S, hn => simp [SearchProg.answers] at hn
    exact Nat.le_trans h2 Nat.one_le_two_pow
  | ask x y k ih =>
    intro d S hn h
    let q : T → Bool := fun v => match x.elim (some v) (xs[·]?), y.elim (some v) (xs[·]?) with
      | some a, some b => l a b
      | _, _ => false
    have hcase : ∀ v ∈ S, (∃ r c, (k (q v)).run l xs v = some (r, c) ∧ c + 1 ≤ d) ∧ (SearchProg.ask x y k).answers l xs v = q v :: (k (q v)).answers l xs v := by
      intro v hv
      obtain ⟨r, c, e, hc⟩ := h v hv
      simp only [SearchProg.run] at e
      cases e1 : x.elim (some v) (xs[·]?) <;> cases e2 : y.elim (some v) (xs[·]?) <;> simp only [e1, e2] at e
      · cases e
      · cases e
      · cases e
      · rename_i u w
        have hq : q v = l u w := by simp only [q, e1, e2]
        rw [hq]
        obtain ⟨⟨r', c'⟩, e3, e4⟩ := Option.map_eq_some_iff.1 e
        injection e4 with e5 e6
        simp only at e5 e6
        exact ⟨⟨r', c', e3, by omega⟩, by simp only [SearchProg.answers, e1, e2]⟩
    cases S with
    | nil => simp
    | cons x0 S0 =>
    generalize hS : x0 :: S0 = S at *
    have hd : 0 < d := by
      obtain ⟨⟨_, _, _, h5⟩, -⟩ := hcase x0 (by rw [← hS]; simp)
      omega
    have sub : ∀ (f : T → Bool) (b : Bool), (∀ v ∈ S.filter f, q v = b) → ((S.filter f).map fun v => (k b).answers l xs v).Nodup := fun f b hf => by
      have h1 := (List.filter_sublist (p := f) |>.map fun v => (SearchProg.ask x y k).answers l xs v).nodup hn
      have h2 : ((S.filter f).map fun v => (SearchProg.ask x y k).answers l xs v) = ((S.filter f).map fun v => (k b).answers l xs v).map (b :: ·) := by
        rw [List.map_map]
        apply List.map_congr_left
        intro v hv
        rw [(hcase v (List.mem_filter.1 hv).1).2, hf v hv]; rfl
      rw [h2, List.nodup_iff_pairwise_ne, List.pairwise_map] at h1
      exact h1.imp fun hne he => hne (by rw [he])
    have ht : ∀ v ∈ S.filter q, q v = true := fun v hv => (List.mem_filter.1 hv).2
    have hf : ∀ v ∈ S.filter (fun v => !q v), q v = false := fun v hv => by simpa using (List.mem_filter.1 hv).2
    have h1 := ih true (d - 1) (S.filter q) (sub _ _ ht) fun v hv => by
      obtain ⟨⟨r, c, e, hc⟩, -⟩ := hcase v (List.mem_filter.1 hv).1
      rw [ht v hv] at e
      exact ⟨r, c, e, by omega⟩
    have h2 := ih false (d - 1) (S.filter (fun v => !q v)) (sub _ _ hf) fun v hv => by
      obtain ⟨⟨r, c, e, hc⟩, -⟩ := hcase v (List.mem_filter.1 hv).1
      rw [hf v hv] at e
      exact ⟨r, c, e, by omega⟩
    have h3 : 2 ^ d = 2 ^ (d - 1) + 2 ^ (d - 1) := by
      obtain ⟨e, rfl⟩ := Nat.exists_eq_succ_of_ne_zero (show d ≠ 0 by omega)
      simp [Nat.pow_succ, Nat.mul_two]
    rw [length_filter_split q S, h3]
    omega

/-- A value between two that get the same answers gets them too, and so the same result. -/
theorem SearchProg.between (xs : List Int) {v w v' : Int} (h1 : v ≤ w) (h2 : w ≤ v') (p : SearchProg) :
    (p.run (fun x y => decide (x < y)) xs v).isSome → p.answers (fun x y => decide (x < y)) xs v = p.answers (fun x y => decide (x < y)) xs v' →
    p.run (fun x y => decide (x < y)) xs w = p.run (fun x y => decide (x < y)) xs v := by
  induction p with
  | found r => intro _ _; rfl
  | ask x y k ih =>
    intro hs ha
    have key : ∀ {b b' b'' : Bool}, b = b'' → b' = b →
        ((k b).run (fun x y => decide (x < y)) xs v).isSome → (k b).answers (fun x y => decide (x < y)) xs v = (k b'').answers (fun x y => decide (x < y)) xs v' →
        ((k b').run (fun x y => decide (x < y)) xs w).map (fun q => (q.1, q.2 + 1)) = ((k b).run (fun x y => decide (x < y)) xs v).map (fun q => (q.1, q.2 + 1)) := by
      intro b b' b'' e1 e2 h3 h4
      subst e1; subst e2
      rw [ih _ h3 h4]
    cases x with
    | none =>
      cases y with
      | none =>
        simp only [SearchProg.run, SearchProg.answers, Option.elim, Int.lt_irrefl, decide_false, Option.isSome_map, List.cons.injEq] at hs ha ⊢
        exact key rfl rfl hs ha.2
      | some j =>
        cases ej : xs[j]? with
        | none => simp [SearchProg.run, ej] at hs
        | some b =>
          simp only [SearchProg.run, SearchProg.answers, Option.elim, ej, Option.isSome_map, List.cons.injEq] at hs ha ⊢
          refine key ha.1 ?_ hs ha.2
          have := ha.1
          by_cases h5 : v < b <;> by_cases h6 : v' < b <;> simp only [h5, h6, decide_true, decide_false] at this ⊢
          · simp only [decide_eq_true_eq]; omega
          · cases this
          · cases this
          · simp only [decide_eq_false_iff_not]; omega
    | some i =>
      cases ei : xs[i]? with
      | none => simp [SearchProg.run, ei] at hs
      | some a =>
        cases y with
        | none =>
          simp only [SearchProg.run, SearchProg.answers, Option.elim, ei, Option.isSome_map, List.cons.injEq] at hs ha ⊢
          refine key ha.1 ?_ hs ha.2
          have := ha.1
          by_cases h5 : a < v <;> by_cases h6 : a < v' <;> simp only [h5, h6, decide_true, decide_false] at this ⊢
          · simp only [decide_eq_true_eq]; omega
          · cases this
          · cases this
          · simp only [decide_eq_false_iff_not]; omega
        | some j =>
          cases ej : xs[j]? with
          | none => simp [SearchProg.run, ei, ej] at hs
          | some b =>
            simp only [SearchProg.run, SearchProg.answers, Option.elim, ei, ej, Option.isSome_map, List.cons.injEq] at hs ha ⊢
            exact key rfl rfl hs ha.2

theorem mem_odds {n : Nat} {w : Int} : w ∈ odds n ↔ ∃ i, i < n ∧ 2 * (i : Int) + 1 = w := by
  simp [odds]

/-- Different values from 0 to `2 n` get different answers. -/
theorem SearchProg.apart {p : SearchProg} {n : Nat} (h : p.Tells n) {c c' : Nat} (hlt : c < c') (hc : c' ≤ 2 * n) :
    p.answers (fun x y => decide (x < y)) (odds n) (c : Int) ≠ p.answers (fun x y => decide (x < y)) (odds n) (c' : Int) := by
  intro ha
  obtain ⟨r, k, e, hr⟩ := h (odds n) c (by simp [odds]) (odds_ascending n)
  obtain ⟨r', k', e', hr'⟩ := h (odds n) ((c + 1 : Nat) : Int) (by simp [odds]) (odds_ascending n)
  have hb := SearchProg.between (odds n) (show (c : Int) ≤ ((c + 1 : Nat) : Int) by omega) (show ((c + 1 : Nat) : Int) ≤ (c' : Int) by omega) p (by rw [e]; rfl) ha
  rw [e, e'] at hb
  injection hb with hb
  injection hb with hb _
  rw [hb, hr, mem_odds, mem_odds] at hr'
  by_cases hev : c % 2 = 0
  · obtain ⟨i, _, h2⟩ := hr'.2 ⟨c / 2, by omega, by omega⟩
    omega
  · obtain ⟨i, _, h2⟩ := hr'.1 ⟨c / 2, by omega, by omega⟩
    omega

theorem exists_greatest (f : Nat → Nat) : ∀ m, ∃ c, c ≤ m ∧ ∀ c', c' ≤ m → f c' ≤ f c
  | 0 => ⟨0, Nat.le_refl _, fun c' h => by rw [show c' = 0 by omega]; exact Nat.le_refl _⟩
  | m + 1 => by
    obtain ⟨c, hc, h⟩ := exists_greatest f m
    by_cases hk : f c ≤ f (m + 1)
    · refine ⟨m + 1, Nat.le_refl _, fun c' hc' => ?_⟩
      by_cases h0 : c' = m + 1
      · rw [h0]; exact Nat.le_refl _
      · exact Nat.le_trans (h c' (by omega)) hk
    · refine ⟨c, by omega, fun c' hc' => ?_⟩
      by_cases h0 : c' = m + 1
      · rw [h0]; omega
      · exact h c' (by omega)

theorem SearchProg.worst_tells {p : SearchProg} {n : Nat} (h : p.Tells n) :
    ∃ c r k, c ≤ 2 * n ∧ p.run (fun x y => decide (x < y)) (odds n) (c : Int) = some (r, k) ∧ 2 * n + 1 ≤ 2 ^ k := by
  have hall : ∀ c : Nat, ∃ r k, p.run (fun x y => decide (x < y)) (odds n) (c : Int) = some (r, k) := fun c => by
    obtain ⟨r, k, e, -⟩ := h (odds n) c (by simp [odds]) (odds_ascending n)
    exact ⟨r, k, e⟩
  obtain ⟨c, hc, hm⟩ := exists_greatest (fun c => (p.run (fun x y => decide (x < y)) (odds n) (c : Int)).elim 0 (·.2)) (2 * n)
  obtain ⟨r, k, e⟩ := hall c
  refine ⟨c, r, k, hc, e, ?_⟩
  have := SearchProg.few_leaves (fun x y => decide (x < y)) (odds n) p k ((List.range (2 * n + 1)).map fun i : Nat => (i : Int)) (by
      rw [List.map_map, List.nodup_iff_pairwise_ne, List.pairwise_map]
      refine List.pairwise_lt_range.imp_of_mem ?_
      intro i j _ hj hij
      exact SearchProg.apart h hij (by have := List.mem_range.1 hj; omega)) (fun v hv => by
      obtain ⟨i, hi, rfl⟩ := List.mem_map.1 hv
      obtain ⟨r', k', e'⟩ := hall i
      refine ⟨r', k', e', ?_⟩
      have := hm i (by have := List.mem_range.1 hi; omega)
      simpa only [e, e', Option.elim] using this)
  simpa using this

/-! ## `BinarySearchFunc` as a program -/

theorem SearchProg.run_andThen (l : T → T → Bool) (xs : List T) (v : T) (f : Nat → SearchProg) {r' c' : Nat} : ∀ (p : SearchProg) {r c : Nat},
    p.run l xs v = some (r, c) → (f r).run l xs v = some (r', c') → (p.andThen f).run l xs v = some (r', c + c') := by
  intro p
  induction p with
  | found r0 => intro r c h1 h2; cases h1; simpa [SearchProg.andThen] using h2
  | ask x y k ih =>
    intro r c h1 h2
    simp only [SearchProg.run] at h1
    simp only [SearchProg.andThen, SearchProg.run]
    cases e1 : x.elim (some v) (xs[·]?) <;> cases e2 : y.elim (some v) (xs[·]?) <;> simp only [e1, e2] at h1 ⊢
    · cases h1
    · cases h1
    · cases h1
    · obtain ⟨⟨r1, c1⟩, e3, e4⟩ := Option.map_eq_some_iff.1 h1
      injection e4 with e5 e6
      simp only at e5 e6
      rw [ih _ (by rw [e3, e5]) h2]
      simp only [Option.map_some]
      rw [← e6]
      congr 2
      omega

theorem searchProg_both (l : T → T → Bool) (a : Sl) (v : T) (m : Mem T) (t : Nat) :
    ∃ r c, (lowerBoundProg (a.len + 1) 0 a.len).run l (a.read m) v = some (r, c) ∧ lowerBoundFuncE a v (countedCmp l) ⟨m, t⟩ = .ok r ⟨m, t + c⟩ := by
  have hlen : (a.read m).length = a.len := by simp [Sl.read]
  exact ⟨_, _, lowerBoundProg_run l (a.read m) v (fun i => l (m.cell (a.off + i)) v) (fun i x h => by
    have hi : i < a.len := by rw [← hlen]; exact (List.getElem?_eq_some_iff.1 h).1
    have : x = m.cell (a.off + i) := by simpa [Sl.read, hi, eq_comm] using h
    rw [this]) (a.len + 1) 0 a.len (by omega) (by omega), lower_bisect (a := a) l v m (a.len + 1) 0 a.len t (by omega) (by omega)⟩

theorem bisect_left_place (g : Nat → Bool) : ∀ (f loc count : Nat), (∀ i, loc ≤ i → i < loc + count → g i = false) → (bisect g f loc count).1 = loc
  | 0, _, _, _ => rfl
  | f + 1, loc, count, h => by
    unfold bisect
    split
    · simp only [h (loc + count / 2) (by omega) (by omega), Bool.false_eq_true, if_false]
      exact bisect_left_place g f loc (count / 2) fun i h1 h2 => h i h1 (by omega)
    · rfl

/-- The calls of `BinarySearchFunc`. -/
theorem binarySearch_bisect (l : T → T → Bool) (a : Sl) (v : T) (m : Mem T) (t : Nat) :
    ∃ b, binarySearchFuncE a v (countedCmp l) ⟨m, t⟩ = .ok b ⟨m, t + ((bisect (fun i => l (m.cell (a.off + i)) v) (a.len + 1) 0 a.len).2 +
      if (bisect (fun i => l (m.cell (a.off + i)) v) (a.len + 1) 0 a.len).1 < a.len then 1 else 0)⟩ := by
  have e : lowerBoundFuncE a v (countedCmp l) ⟨m, t⟩ = _ := lower_bisect (a := a) l v m (a.len + 1) 0 a.len t (by omega) (by omega)
  simp only [binarySearchFuncE, GoM.bind_def, e]
  by_cases hr : (bisect (fun i => l (m.cell (a.off + i)) v) (a.len + 1) 0 a.len).1 < a.len
  · rw [if_pos hr, if_pos hr]
    simp only [GoM.bind_def]
    rw [CS.on_get' hr]
    simp only [countedCmp]
    cases l v (m.cell (a.off + (bisect (fun i => l (m.cell (a.off + i)) v) (a.len + 1) 0 a.len).1)) with
    | false => exact ⟨_, rfl⟩
    | true => exact ⟨_, rfl⟩
  · rw [if_neg hr, if_neg hr]
    exact ⟨_, rfl⟩

/-! ## Unordered lists -/

/-- The position whose element a question compares with the value. -/
def touchedBy : Option Nat → Option Nat → List Nat
  | none, some j => [j]
  | some i, none => [i]
  | _, _ => []

/-- The positions whose elements are compared with the value. -/
def SearchProg.touched (l : T → T → Bool) (xs : List T) (v : T) : SearchProg → List Nat
  | .found _ => []
  | .ask x y k =>
    match x.elim (some v) (xs[·]?), y.elim (some v) (xs[·]?) with
    | some a, some b => touchedBy x y ++ (k (l a b)).touched l xs v
    | _, _ => []

theorem SearchProg.touched_length (l : T → T → Bool) (xs : List T) (v : T) : ∀ (p : SearchProg) {r c : Nat}, p.run l xs v = some (r, c) → (p.touched l xs v).length ≤ c := by
  intro p
  induction p with
  | found r0 => intro r c h; simp [SearchProg.touched]
  | ask x y k ih =>
    intro r c h
    simp only [SearchProg.run] at h
    simp only [SearchProg.touched]
    cases e1 : x.elim (some v) (xs[·]?) <;> cases e2 : y.elim (some v) (xs[·]?) <;> simp only [e1, e2] at h ⊢
    · simp
    · simp
    · simp
    · obtain ⟨⟨r1, c1⟩, e3, e4⟩ := Option.map_eq_some_iff.1 h
      injection e4 with e5 e6
      simp only at e5 e6
      have := ih _ e3
      rw [List.length_append]
      have h1 : (touchedBy x y).length ≤ 1 := by
        unfold touchedBy
        split <;> simp
      omega

/-- Putting the value where it was not looked for changes nothing, if the elements are all different and none of them is the value. -/
theorem SearchProg.not_touched {xs : List Int} {v : Int} (hn : xs.Nodup) (hv : v ∉ xs) {i : Nat} (p : SearchProg) :
    (p.run (fun x y => decide (x = y)) xs v).isSome → i ∉ p.touched (fun x y => decide (x = y)) xs v →
    p.run (fun x y => decide (x = y)) (xs.set i v) v = p.run (fun x y => decide (x = y)) xs v := by
  induction p with
  | found r => intro _ _; rfl
  | ask x y k ih =>
    intro hs ht
    have hin : ∀ {j : Nat} {b : Int}, xs[j]? = some b → b ≠ v := fun e h => hv (h ▸ List.mem_of_getElem? e)
    have hset : ∀ {j : Nat} {b : Int}, xs[j]? = some b → (xs.set i v)[j]? = some (if i = j then v else b) := fun {j b} e => by
      have hj := (List.getElem?_eq_some_iff.1 e).1
      rw [List.getElem?_set]
      by_cases h : i = j
      · subst h; simp [hj]
      · simp [h, e]
    have hinj : ∀ {j j' : Nat} {b b' : Int}, xs[j]? = some b → xs[j']? = some b' → (b = b' ↔ j = j') := fun {j j' b b'} e e' => by
      constructor
      · intro h
        subst h
        obtain ⟨h1, h2⟩ := List.getElem?_eq_some_iff.1 e
        obtain ⟨h3, h4⟩ := List.getElem?_eq_some_iff.1 e'
        exact (List.getElem_inj hn).1 (h2.trans h4.symm)
      · intro h; subst h; rw [e] at e'; injection e'
    cases x with
    | none =>
      cases y with
      | none =>
        simp only [SearchProg.run, SearchProg.touched, touchedBy, Option.elim, Option.isSome_map, List.nil_append, decide_true] at hs ht ⊢
        rw [ih _ hs ht]
      | some j =>
        cases ej : xs[j]? with
        | none => simp [SearchProg.run, ej] at hs
        | some b =>
          simp only [SearchProg.run, SearchProg.touched, touchedBy, Option.elim, ej, hset ej, Option.isSome_map, List.mem_append, List.mem_singleton, not_or] at hs ht ⊢
          rw [if_neg ht.1, ih _ hs ht.2]
    | some j' =>
      cases ei : xs[j']? with
      | none => simp [SearchProg.run, ei] at hs
      | some a =>
        cases y with
        | none =>
          simp only [SearchProg.run, SearchProg.touched, touchedBy, Option.elim, ei, hset ei, Option.isSome_map, List.mem_append, List.mem_singleton, not_or] at hs ht ⊢
          rw [if_neg ht.1, ih _ hs ht.2]
        | some j =>
          cases ej : xs[j]? with
          | none => simp [SearchProg.run, ei, ej] at hs
          | some b =>
            simp only [SearchProg.run, SearchProg.touched, touchedBy, Option.elim, ei, ej, hset ei, hset ej, Option.isSome_map, List.nil_append] at hs ht ⊢
            have : decide ((if i = j' then v else a) = (if i = j then v else b)) = decide (a = b) := by
              apply decide_eq_decide.2
              have h1 := hin ei
              have h2 := hin ej
              have h3 := hinj ei ej
              rw [h3]
              by_cases c1 : i = j' <;> by_cases c2 : i = j
              · rw [if_pos c1, if_pos c2]; exact ⟨fun _ => c1 ▸ c2, fun _ => rfl⟩
              · rw [if_pos c1, if_neg c2]; exact ⟨fun h => absurd h.symm h2, fun h => absurd (c1.trans h) c2⟩
              · rw [if_neg c1, if_pos c2]; exact ⟨fun h => absurd h h1, fun h => absurd (c2.trans h.symm) c1⟩
              · rw [if_neg c1, if_neg c2]; exact h3
            rw [this, ih _ hs ht]

theorem length_of_all : ∀ (n : Nat) (L : List Nat), (∀ i, i < n → i ∈ L) → n ≤ L.length
  | 0, _, _ => Nat.zero_le _
  | n + 1, L, h => by
    have h1 := length_of_all n (L.erase n) fun i hi => (List.mem_erase_of_ne (show i ≠ n by omega)).2 (h i (by omega))
    have h2 := List.length_erase_of_mem (h n (by omega))
    have h3 := List.length_pos_of_mem (h n (by omega))
    omega

theorem exists_untouched (n : Nat) (L : List Nat) (h : L.length < n) : ∃ i, i < n ∧ i ∉ L := by
  apply Classical.byContradiction
  intro hno
  have := length_of_all n L fun i hi => Classical.byContradiction fun hc => hno ⟨i, hi, hc⟩
  omega

end Stl4go
