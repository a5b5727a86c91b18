import Verif.Spec.SliceLaws
import Verif.Proofs.SliceLaws
import Verif.Props.Numeric
import Verif.Proofs.SortWitness
/-!
# Properties C162, C163: calls one after another on the same slice

The equations are between whole results: what is returned and all memory.
-/
namespace Stl4go
variable {T σ τ : Type}

/-- C162: two calls of `Transform` do what one does that applies both callbacks to each element, although they call them in another order. -/
theorem C162_transform (a : Sl) (f : σ → T → σ × T) (g : τ → T → τ × T) (s : σ) (t : τ) (m : Mem T) :
    (do let s ← transform a f s; let t ← transform a g t; pure (s, t) : GoM (Mem T) (σ × τ)) m = transform a (inTurn f g) (s, t) m := by
  obtain ⟨h1, h2⟩ := mapS_mapS f g (a.read m) s t
  simp only [GoM.bind_def, transform_eq, GoM.pure_apply]
  rw [Sl.read_write_self _ _ _ (by simp [mapS_length]), h1, Mem.write_write _ _ _ _ (by simp [mapS_length]), ← h2]
  rfl

/-- C162: `Transform` with a callback without state and `Reverse` may change places. -/
theorem C162_reverse (a : Sl) (f : T → T) (m : Mem T) :
    (do reverse a; transform a (fun (_ : Unit) x => ((), f x)) () : GoM (Mem T) Unit) m =
      (do let _ ← transform a (fun (_ : Unit) x => ((), f x)) (); reverse a : GoM (Mem T) Unit) m := by
  simp only [GoM.bind_def, transform_eq, reverse_eq]
  rw [Sl.read_write_self _ _ _ (by simp), Sl.read_write_self _ _ _ (by simp [mapS_length]), Mem.write_write _ _ _ _ (by simp [mapS_length]),
    Mem.write_write _ _ _ _ (by simp [mapS_length]), mapS_map, mapS_map, List.map_reverse]

/-- C162: after `RemoveIf` with one predicate, `RemoveIf` with another one on the result leaves and returns what one call with both would. -/
theorem C162_removeIf (a : Sl) (f : σ → T → σ × Bool) (g : τ → T → τ × Bool) (s : σ) (t : τ) (m : Mem T) (ha : a.WF m) :
    ∃ s' t' r m2 m1, (do let r ← removeIf a f s; let q ← removeIf r.2 g t; pure ((r.1, q.1), q.2) : GoM (Mem T) ((σ × τ) × Sl)) m = .ok ((s', t'), r) m2 ∧
      removeIf a (orElse f g) (s, t) m = .ok ((s', t'), r) m1 ∧ r.read m2 = r.read m1 ∧ OnlyIn m m2 a ∧ OnlyIn m m1 a := by
  obtain ⟨r1, m1, e1, o1, c1, d1, k1⟩ := C56_removeIf a f s m ha
  have hl1 : r1.len ≤ a.len := by
    have h := Sl.read_length m1 r1
    have h' := rejectS_length f (a.read m) s
    rw [d1] at h
    simp at h'
    omega
  obtain ⟨r2, m2, e2, o2, c2, d2, k2⟩ := C56_removeIf r1 g t m1 ⟨by have := ha.1; omega, by rw [o1, c1, k1.1]; exact ha.2⟩
  obtain ⟨r3, m3, e3, o3, c3, d3, k3⟩ := C56_removeIf a (orElse f g) (s, t) m ha
  obtain ⟨h1, h2⟩ := rejectS_rejectS f g (a.read m) s t
  have hr : r2.read m2 = r3.read m3 := by rw [d2, d1, h1, d3]; rfl
  have hl : r2.len = r3.len := by
    have := congrArg List.length hr
    simpa using this
  have h23 : r2 = r3 := by
    cases r2; cases r3
    simp only at o2 c2 o3 c3 hl
    rw [o2, c2, o3, c3, o1, c1, hl]
  subst h23
  refine ⟨(rejectS f s (a.read m)).1, (rejectS g t (r1.read m1)).1, r2, m2, m3, ?_, ?_, hr, ⟨by rw [k2.1, k1.1], fun k hk => ?_⟩, k3⟩
  · simp only [GoM.bind_def, e1, e2, GoM.pure_apply]
  · rw [e3, d1, h1, ← h2]; rfl
  · rw [k2.2 k (by rw [o1]; omega), k1.2 k hk]

/-- C162: `RemoveIf` with a predicate without state, once more on its result, returns the same and changes nothing; likewise `Remove`. -/
theorem C162_again [GoEq T] (a : Sl) (p : T → Bool) (x : T) (m : Mem T) (ha : a.WF m) :
    (∃ r m', removeIf a (fun (_ : Unit) v => ((), p v)) () m = .ok ((), r) m' ∧ removeIf r (fun (_ : Unit) v => ((), p v)) () m' = .ok ((), r) m') ∧
    ∃ r m', remove a x m = .ok r m' ∧ remove r x m' = .ok r m' := by
  have hwf : ∀ (r : Sl) (m' : Mem T) (q : T → Bool), r.off = a.off → r.cap = a.cap → OnlyIn m m' a → r.read m' = (a.read m).filter q → r.WF m' := by
    intro r m' q ho hc hk hr
    have h := congrArg List.length hr
    have h2 := List.length_filter_le q (a.read m)
    simp at h h2
    exact ⟨by have := ha.1; omega, by rw [ho, hc, hk.1]; exact ha.2⟩
  have hff : ∀ q : T → Bool, ((a.read m).filter q).filter q = (a.read m).filter q := by intro q; simp
  constructor
  · obtain ⟨r, m', e, o, c, d, k⟩ := C56_removeIf a (fun (_ : Unit) v => ((), p v)) () m ha
    rw [rejectS_filter] at d
    refine ⟨r, m', e, ?_⟩
    obtain ⟨r2, m2, e2, o2, c2, d2, k2⟩ := C56_removeIf r (fun (_ : Unit) v => ((), p v)) () m' (hwf r m' _ o c k d)
    rw [rejectS_filter, d, hff, ← d] at d2
    have hl : r2.len = r.len := by have := congrArg List.length d2; simpa using this
    have h2 : r2 = r := by
      cases r2; cases r
      simp only at o2 c2 hl
      rw [o2, c2, hl]
    subst h2
    rw [e2, OnlyIn.same k2 (OnlyIn.refl m' r2) d2]
  · obtain ⟨r, m', e, o, c, d, k⟩ := C56_remove a x m ha
    refine ⟨r, m', e, ?_⟩
    obtain ⟨r2, m2, e2, o2, c2, d2, k2⟩ := C56_remove r x m' (hwf r m' _ o c k d)
    rw [d, hff, ← d] at d2
    have hl : r2.len = r.len := by have := congrArg List.length d2; simpa using this
    have h2 : r2 = r := by
      cases r2; cases r
      simp only at o2 c2 hl
      rw [o2, c2, hl]
    subst h2
    rw [e2, OnlyIn.same k2 (OnlyIn.refl m' r2) d2]

/-- C162: `Unique` on its own result returns the same and changes nothing. -/
theorem C162_unique [GoEq T] (hE : PartialEq T) (a : Sl) (m : Mem T) (ha : a.WF m) :
    ∃ r m', unique a m = .ok r m' ∧ unique r m' = .ok r m' := by
  obtain ⟨r, m', e, o, c, d, k⟩ := C55_unique hE a m ha
  refine ⟨r, m', e, ?_⟩
  have hl1 : r.len ≤ a.len := by
    have h := congrArg List.length d
    have h2 := collapse_length_le (a.read m)
    simp at h h2
    omega
  obtain ⟨r2, m2, e2, o2, c2, d2, k2⟩ := C55_unique hE r m' ⟨by have := ha.1; omega, by rw [o, c, k.1]; exact ha.2⟩
  rw [d, collapse_idem hE, ← d] at d2
  have hl : r2.len = r.len := by have := congrArg List.length d2; simpa using this
  have h2 : r2 = r := by
    cases r2; cases r
    simp only at o2 c2 hl
    rw [o2, c2, hl]
  subst h2
  rw [e2, OnlyIn.same k2 (OnlyIn.refl m' r2) d2]

/-- C162: `Replace` twice is `Replace` once, also if the new value is equal to the old one. -/
theorem C162_replace [GoEq T] (a : Sl) (old new : T) (m : Mem T) :
    (do replace a old new; replace a old new : GoM (Mem T) Unit) m = replace a old new m := by
  simp only [GoM.bind_def, replace_eq]
  rw [Sl.read_write_self _ _ _ (by simp), Mem.write_write _ _ _ _ (by simp), List.map_map]
  congr 2
  apply List.map_congr_left
  intro v _
  simp only [Function.comp]
  split
  · split <;> rfl
  · rfl

/-- C162: of two calls of `Fill` the second one decides; `Reverse` after `Fill` changes nothing. -/
theorem C162_fill (a : Sl) (v w : T) (m : Mem T) (ha : a.WF m) (hlen : a.len ≤ 2 ^ 62) :
    (do fill a v; fill a w : GoM (Mem T) Unit) m = fill a w m ∧ (do fill a v; reverse a : GoM (Mem T) Unit) m = fill a v m := by
  constructor
  · simp only [GoM.bind_def, fill_eq a m v ha hlen, fill_eq a m w ha hlen]
    rw [fill_eq a _ w (ha.write _ _) hlen, Mem.write_write _ _ _ _ (by simp)]
  · simp only [GoM.bind_def, fill_eq a m v ha hlen, reverse_eq]
    rw [Sl.read_write_self _ _ _ (by simp), List.reverse_replicate, Mem.write_write _ _ _ _ (by simp)]

/-- C162: `Sum` of integers is the same before and after `Reverse`, `Shuffle`, `Sort` and `DescSort`, in whatever type and with wrap-around. -/
theorem C162_sum {pf : Platform} (hw : pf.Real) (R T : GoInt) {sort : Nat → SortProg} (hs : SortContract sort) (a : Sl) (m : Mem Int)
    (draws : List (Nat × Nat)) (hd : ∀ d ∈ draws, d.1 < a.len ∧ d.2 < a.len) (act : GoM (Mem Int) Unit)
    (ha : act = reverse a ∨ act = shuffle a draws ∨ act = sortAsc sort a ∨ act = descSort sort a) :
    ∃ m', act m = .ok () m' ∧ sumAs pf (.int R) (.int T) (a.read m') = sumAs pf (.int R) (.int T) (a.read m) := by
  have key : ∀ m' : Mem Int, (a.read m').Perm (a.read m) → sumAs pf (.int R) (.int T) (a.read m') = sumAs pf (.int R) (.int T) (a.read m) := by
    intro m' hp
    have h1 := C71_sumAs hw R false T (a.read m')
    rw [sum_perm hp] at h1
    exact C71_unique hw R _ _ _ h1 (C71_sumAs hw R false T (a.read m))
  rcases ha with rfl | rfl | rfl | rfl
  · refine ⟨_, reverse_eq a m, key _ ?_⟩
    rw [Sl.read_write_self _ _ _ (by simp)]
    exact List.reverse_perm _
  · obtain ⟨m', e, h, _⟩ := C58_shuffle a m draws hd
    exact ⟨m', e, key _ h⟩
  · obtain ⟨m', e, h, _⟩ := C62_sort hs a m
    exact ⟨m', e, key _ h⟩
  · obtain ⟨m', e, h, _⟩ := C62_descSort hs a m
    exact ⟨m', e, key _ h⟩

/-- What is in the five cells, if the call returned. -/
def cellsAfter {α : Type} (r : Res (Mem Int) α) : List Int := match r with
  | .ok _ m => Sl.read m ⟨0, 5, 5⟩
  | _ => []

/-- With a callback that counts, the order of `Reverse` and `Transform` matters. -/
example : (cellsAfter ((do reverse ⟨1, 3, 4⟩; let _ ← transform ⟨1, 3, 4⟩ (fun n v => (n + 1, 10 * v + n)) 0; pure () : GoM (Mem Int) Unit) (memOf [1, 2, 3, 4, 5])),
    cellsAfter ((do let _ ← transform ⟨1, 3, 4⟩ (fun n v => (n + 1, 10 * v + n)) 0; reverse ⟨1, 3, 4⟩ : GoM (Mem Int) Unit) (memOf [1, 2, 3, 4, 5]))) =
    ([1, 40, 31, 22, 5], [1, 42, 31, 20, 5]) := by decide +kernel

/-- What stays behind the result may differ between two calls of `RemoveIf` and one. -/
example : (cellsAfter ((do let r ← removeIf ⟨0, 5, 5⟩ (fun (_ : Unit) v => ((), v == 1)) (); removeIf r.2 (fun (_ : Unit) v => ((), v == 2)) () : GoM (Mem Int) (Unit × Sl))
      (memOf [1, 2, 3, 4, 5])),
    cellsAfter (removeIf ⟨0, 5, 5⟩ (orElse (fun (_ : Unit) v => ((), v == 1)) (fun (_ : Unit) v => ((), v == 2))) ((), ()) (memOf [1, 2, 3, 4, 5]))) =
    ([3, 4, 5, 5, 5], [3, 4, 5, 4, 5]) := by decide +kernel

/-! ## C163 -/

/-- C163: `StableSortFunc` by the second criterion and then by the first one is `StableSortFunc` by both. -/
theorem C163_keys {stable : Nat → SortProg} (hs : StableContract stable) (less1 less2 : T → T → Bool) (h1 : StrictWeak less1) (h2 : StrictWeak less2)
    (a : Sl) (m : Mem T) :
    ∃ m', (do stableSortFunc stable a less2; stableSortFunc stable a less1 : GoM (Mem T) Unit) m = .ok () m' ∧
      stableSortFunc stable a (thenBy less1 less2) m = .ok () m' := by
  obtain ⟨m1, e1, r1, k1⟩ := C63_stableSortFunc hs less2 h2 a m
  obtain ⟨m2, e2, r2, k2⟩ := C63_stableSortFunc hs less1 h1 a m1
  obtain ⟨m3, e3, r3, k3⟩ := C63_stableSortFunc hs (thenBy less1 less2) (thenBy_weak h1 h2) a m
  refine ⟨m2, by simp only [GoM.bind_def, e1, e2], ?_⟩
  rw [e3, OnlyIn.same (k1.andThen k2) k3]
  rw [r2, r1, r3, stably_thenBy h1 h2]

/-- C163: a second stable sort by the same criterion changes nothing, neither after a stable sort nor after another one. -/
theorem C163_again {sort stable : Nat → SortProg} (hs : SortContract sort) (hst : StableContract stable) (less : T → T → Bool) (hw : StrictWeak less)
    (a : Sl) (m : Mem T) :
    (do stableSortFunc stable a less; stableSortFunc stable a less : GoM (Mem T) Unit) m = stableSortFunc stable a less m ∧
    (do sortFunc sort a less; stableSortFunc stable a less : GoM (Mem T) Unit) m = sortFunc sort a less m := by
  have key : ∀ m1 : Mem T, SortedBy less (a.read m1) → stableSortFunc stable a less m1 = .ok () m1 := by
    intro m1 h
    obtain ⟨m2, e2, r2, k2⟩ := C63_stableSortFunc hst less hw a m1
    rw [sortedStably_of_sorted hw h] at r2
    rw [e2, OnlyIn.same k2 (OnlyIn.refl m1 a) r2]
  constructor
  · obtain ⟨m1, e1, r1, k1⟩ := C63_stableSortFunc hst less hw a m
    have h := (C63_unique less hw (a.read m)).1
    rw [← r1] at h
    simp only [GoM.bind_def, e1, key m1 h]
  · obtain ⟨m1, e1, _, h, _⟩ := C62_sortFunc hs less hw a m
    simp only [GoM.bind_def, e1, key m1 h]

/-- Sorting by the last digit and then by the first one. -/
example : cellsAfter ((do stableSortFunc insertionProg ⟨0, 4, 5⟩ (fun x y => decide (x % 10 < y % 10)); stableSortFunc insertionProg ⟨0, 4, 5⟩ (fun x y => decide (x / 10 < y / 10)) :
    GoM (Mem Int) Unit) (memOf [31, 12, 32, 11, 7])) = [11, 12, 31, 32, 7] := by decide +kernel

example : StrictWeak (fun x y : Int => decide (x % 10 < y % 10)) where
  irrefl a := by simp
  trans a b c h1 h2 := by simp at *; omega
  incomp a b c h1 h2 h3 h4 := by simp at *; omega

end Stl4go
