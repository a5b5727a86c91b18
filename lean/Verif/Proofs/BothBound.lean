import Verif.Spec.BothBound
import Verif.Proofs.AskBound
/-! # Lemmas: finding the least and the greatest at once takes `⌈3n/2⌉ - 2` comparisons -/
namespace Stl4go
variable {α : Type}

/-- What is known of an element: nothing, that it was only the greater, only the lesser, or both. -/
inductive SoFar where
  | new | top | low | mid
deriving DecidableEq

/-- What the element still has to be asked, in half comparisons. -/
def SoFar.weight : SoFar → Nat
  | .new => 3
  | .top => 2
  | .low => 2
  | .mid => 0

def SoFar.win : SoFar → SoFar
  | .new => .top
  | .top => .top
  | .low => .mid
  | .mid => .mid

def SoFar.lose : SoFar → SoFar
  | .new => .low
  | .low => .low
  | .top => .mid
  | .mid => .mid

/-- The element may be changed from `x` to `y` without any answer so far being wrong. -/
def SoFar.free : SoFar → Int → Int → Prop
  | .new, _, _ => True
  | .top, x, y => x ≤ y
  | .low, x, y => y ≤ x
  | .mid, x, y => y = x

theorem SoFar.free_refl (k : SoFar) (x : Int) : k.free x x := by cases k <;> simp [SoFar.free]

theorem SoFar.free_trans {k : SoFar} {x y z : Int} (h1 : k.free x y) (h2 : k.free y z) : k.free x z := by
  cases k <;> simp only [SoFar.free] at * <;> omega

theorem SoFar.free_win {k : SoFar} {x y : Int} (h : k.win.free x y) : k.free x y ∧ x ≤ y := by
  cases k <;> simp only [SoFar.win, SoFar.free] at * <;> constructor <;> first | trivial | omega

theorem SoFar.free_lose {k : SoFar} {x y : Int} (h : k.lose.free x y) : k.free x y ∧ y ≤ x := by
  cases k <;> simp only [SoFar.lose, SoFar.free] at * <;> constructor <;> first | trivial | omega

/-- `v` may be changed to `v'`. -/
def Moves (st : Nat → SoFar) (v v' : Nat → Int) : Prop := ∀ i, (st i).free (v i) (v' i)

/-- Different elements. -/
def AllApart (n : Nat) (v : Nat → Int) : Prop := ∀ i j, i < n → j < n → v i = v j → i = j

def total (n : Nat) (st : Nat → SoFar) : Nat := ((List.range n).map fun i => (st i).weight).sum

def put {β : Type} (f : Nat → β) (i : Nat) (b : β) : Nat → β := fun j => if j = i then b else f j

theorem exists_above (n : Nat) (v : Nat → Int) : ∃ M, ∀ i, i < n → v i < M := by
  induction n with
  | zero => exact ⟨0, fun i h => absurd h (Nat.not_lt_zero _)⟩
  | succ n ih =>
    obtain ⟨M, h⟩ := ih
    by_cases hM : v n < M
    · exact ⟨M, fun i hi => if e : i = n then e ▸ hM else h i (by omega)⟩
    · exact ⟨v n + 1, fun i hi => if e : i = n then by rw [e]; omega else by have := h i (by omega); omega⟩

theorem exists_below (n : Nat) (v : Nat → Int) : ∃ M, ∀ i, i < n → M < v i := by
  obtain ⟨M, h⟩ := exists_above n fun i => - v i
  exact ⟨-M, fun i hi => by have := h i hi; omega⟩

theorem AllApart.put_above {n : Nat} {v : Nat → Int} (h : AllApart n v) {i : Nat} {M : Int} (hM : ∀ j, j < n → v j ≠ M) : AllApart n (put v i M) := by
  intro a b ha hb e
  simp only [put] at e
  split at e <;> split at e
  · omega
  · exact absurd e.symm (hM b hb)
  · exact absurd e (hM a ha)
  · exact h a b ha hb e

theorem Moves.put {st : Nat → SoFar} {v : Nat → Int} {i : Nat} {x : Int} (h : (st i).free (v i) x) : Moves st v (put v i x) := by
  intro j
  unfold Stl4go.put
  split
  · rename_i e; rw [e]; exact h
  · exact SoFar.free_refl _ _

/-- One of the two can be made to win so that at most one comparison's worth is found out. -/
theorem adversary {n : Nat} {st : Nat → SoFar} {v : Nat → Int} (hv : AllApart n v) {i j : Nat} (hi : i < n) (hj : j < n) (hij : i ≠ j) :
    ∃ a b v', ((a = i ∧ b = j) ∨ (a = j ∧ b = i)) ∧ AllApart n v' ∧ Moves st v v' ∧ v' a < v' b ∧
      (st a).weight + (st b).weight ≤ (st a).lose.weight + (st b).win.weight + 2 := by
  have stay : ∀ a b, a < n → b < n → a ≠ b → v a < v b → ∃ a' b' v', ((a' = a ∧ b' = b) ∨ (a' = b ∧ b' = a)) ∧ AllApart n v' ∧ Moves st v v' ∧ v' a' < v' b' ∧
      (st a').weight + (st b').weight ≤ (st a').lose.weight + (st b').win.weight + 2 := by
    intro a b ha hb hab hlt
    obtain ⟨M, hM⟩ := exists_above n v
    obtain ⟨N, hN⟩ := exists_below n v
    have keep : (st a).weight + (st b).weight ≤ (st a).lose.weight + (st b).win.weight + 2 → ∃ a' b' v', ((a' = a ∧ b' = b) ∨ (a' = b ∧ b' = a)) ∧ AllApart n v' ∧ Moves st v v' ∧
        v' a' < v' b' ∧ (st a').weight + (st b').weight ≤ (st a').lose.weight + (st b').win.weight + 2 :=
      fun h => ⟨a, b, v, .inl ⟨rfl, rfl⟩, hv, fun _ => SoFar.free_refl _ _, hlt, h⟩
    have raise : st a = .top → (st b).weight + 2 ≤ (st b).lose.weight + 4 → ∃ a' b' v', ((a' = a ∧ b' = b) ∨ (a' = b ∧ b' = a)) ∧ AllApart n v' ∧ Moves st v v' ∧
        v' a' < v' b' ∧ (st a').weight + (st b').weight ≤ (st a').lose.weight + (st b').win.weight + 2 := fun h1 h2 =>
      ⟨b, a, put v a M, .inr ⟨rfl, rfl⟩, hv.put_above (fun k hk => by have := hM k hk; omega), Moves.put (by rw [h1]; have := hM a ha; simp only [SoFar.free]; omega),
        by simp only [put, if_true]; rw [if_neg (by omega)]; exact hM b hb, by rw [h1]; show (st b).weight + 2 ≤ (st b).lose.weight + 2 + 2; omega⟩
    cases ea : st a <;> cases eb : st b
    case new.low =>
      exact ⟨b, a, put v b N, .inr ⟨rfl, rfl⟩, hv.put_above (fun k hk => by have := hN k hk; omega), Moves.put (by rw [eb]; have := hN b hb; simp only [SoFar.free]; omega),
        by simp only [put, if_true]; rw [if_neg hab]; exact hN a ha, by rw [ea, eb]; decide⟩
    case top.new => exact raise ea (by rw [eb]; decide)
    case top.low => exact raise ea (by rw [eb]; decide)
    all_goals exact keep (by rw [ea, eb]; decide)
  have hne : v i ≠ v j := fun e => hij (hv i j hi hj e)
  by_cases hlt : v i < v j
  · exact stay i j hi hj hij hlt
  · obtain ⟨a, b, v', h, rest⟩ := stay j i hj hi (Ne.symm hij) (by omega)
    exact ⟨a, b, v', h.elim .inr .inl, rest⟩

theorem total_put (st : Nat → SoFar) (i : Nat) (k : SoFar) : ∀ n, i < n → total n (put st i k) + (st i).weight = total n st + k.weight := by
  intro n
  have hout : ∀ m, m ≤ i → total m (put st i k) = total m st := by
    intro m hm
    unfold total
    congr 1
    apply List.map_congr_left
    intro j hj
    have := List.mem_range.1 hj
    simp only [put]
    rw [if_neg (by omega)]
  induction n with
  | zero => intro h; omega
  | succ n ih =>
    intro h
    have e : ∀ s : Nat → SoFar, total (n + 1) s = total n s + (s n).weight := fun s => by simp [total, List.range_succ]
    rw [e, e]
    by_cases hn : i = n
    · subst hn
      rw [hout i (Nat.le_refl _)]
      simp only [put, if_true]
      omega
    · have := ih (by omega)
      have h2 : put st i k n = st n := by simp only [put]; rw [if_neg (by omega)]
      rw [h2]
      omega

/-- The list of the first `n` values. -/
def listOf (n : Nat) (v : Nat → Int) : List Int := (List.range n).map v

theorem listOf_get {n : Nat} {v : Nat → Int} {i : Nat} (h : i < n) : (listOf n v)[i]? = some (v i) := by simp [listOf, h]

theorem listOf_nodup {n : Nat} {v : Nat → Int} (h : AllApart n v) : (listOf n v).Nodup := by
  rw [listOf, List.nodup_iff_pairwise_ne, List.pairwise_map]
  refine List.pairwise_lt_range.imp_of_mem ?_
  intro a b ha hb hab e
  have := h a b (List.mem_range.1 ha) (List.mem_range.1 hb) e
  omega

/-- Against the adversary every comparison finds out at most two halves. -/
theorem AskProg.against {n : Nat} (p : AskProg α) : ∀ (st : Nat → SoFar) (v : Nat → Int), AllApart n v → (∀ v', AllApart n v' → Moves st v v' → (p.run intLess (listOf n v')).isSome) →
    ∃ st' v' r E, AllApart n v' ∧ Moves st v v' ∧ total n st ≤ total n st' + 2 * E.length ∧ (∀ w w', Moves st' w w' → Moves st w w') ∧
      ∀ w, Moves st' v' w → p.run intLess (listOf n w) = some (r, E) := by
  induction p with
  | ret a => intro st v hv _; exact ⟨st, v, a, [], hv, fun _ => SoFar.free_refl _ _, Nat.le_refl _, fun _ _ h => h, fun _ _ => rfl⟩
  | ask i j k ih =>
    intro st v hv hall
    have hin : i < n ∧ j < n := by
      have := hall v hv fun _ => SoFar.free_refl _ _
      simp only [AskProg.run] at this
      have hout : ∀ {q : Nat}, ¬ q < n → (listOf n v)[q]? = none := fun h => by simp [listOf]; omega
      constructor
      · apply Classical.byContradiction
        intro h
        rw [hout h] at this
        cases this
      · apply Classical.byContradiction
        intro h
        rw [hout h] at this
        cases h1 : (listOf n v)[i]? <;> rw [h1] at this <;> cases this
    obtain ⟨hi, hj⟩ := hin
    have run : ∀ w : Nat → Int, (AskProg.ask i j k).run intLess (listOf n w) = ((k (intLess (w i) (w j))).run intLess (listOf n w)).map fun q => (q.1, (i, j) :: q.2) := fun w => by
      simp only [AskProg.run, listOf_get hi, listOf_get hj]
    by_cases hij : i = j
    · subst hij
      have hb : ∀ w : Nat → Int, intLess (w i) (w i) = false := fun w => by simp [intLess]
      obtain ⟨st', v', r, E, h1, h2, h3, h4, h5⟩ := ih false st v hv (fun v' hv' hm => by
        have := hall v' hv' hm
        rw [run, hb, Option.isSome_map] at this
        exact this)
      exact ⟨st', v', r, (i, i) :: E, h1, h2, by simp only [List.length_cons]; omega, h4, fun w hw => by rw [run, hb, h5 w hw]; rfl⟩
    · obtain ⟨a, b, v1, hab, hv1, hm1, hlt, hcost⟩ := adversary (st := st) hv hi hj hij
      have hne : a ≠ b := by rcases hab with ⟨rfl, rfl⟩ | ⟨rfl, rfl⟩ <;> omega
      have ha : a < n := by rcases hab with ⟨rfl, rfl⟩ | ⟨rfl, rfl⟩ <;> assumption
      have hb : b < n := by rcases hab with ⟨rfl, rfl⟩ | ⟨rfl, rfl⟩ <;> assumption
      let st1 := put (put st a (st a).lose) b (st b).win
      have ea : st1 a = (st a).lose := by simp only [st1, put]; rw [if_neg hne]; simp
      have eb : st1 b = (st b).win := by simp [st1, put]
      have eo : ∀ q, q ≠ a → q ≠ b → st1 q = st q := fun q h1 h2 => by simp only [st1, put]; rw [if_neg h2, if_neg h1]
      have finer : ∀ w w', Moves st1 w w' → Moves st w w' := fun w w' h q => by
        have := h q
        by_cases h1 : q = a
        · subst h1; rw [ea] at this; exact (SoFar.free_lose this).1
        · by_cases h2 : q = b
          · subst h2; rw [eb] at this; exact (SoFar.free_win this).1
          · rwa [eo q h1 h2] at this
      have same : ∀ w, Moves st1 v1 w → intLess (w i) (w j) = decide (a = i) := fun w h => by
        have h1 := h a
        have h2 := h b
        rw [ea] at h1; rw [eb] at h2
        have h1 := (SoFar.free_lose h1).2
        have h2 := (SoFar.free_win h2).2
        have hw : w a < w b := by omega
        rcases hab with ⟨rfl, rfl⟩ | ⟨rfl, rfl⟩
        · simp [intLess, hw]
        · simp only [intLess, hne, decide_false, decide_eq_false_iff_not]; omega
      have htot : total n st ≤ total n st1 + 2 := by
        have t1 := total_put st a (st a).lose n ha
        have t2 := total_put (put st a (st a).lose) b (st b).win n hb
        have t3 : put st a (st a).lose b = st b := by simp only [put]; rw [if_neg (Ne.symm hne)]
        rw [t3] at t2
        show _ ≤ total n (put (put st a (st a).lose) b (st b).win) + 2
        omega
      have trans : ∀ {s : Nat → SoFar} {u w x : Nat → Int}, Moves s u w → Moves s w x → Moves s u x := fun h1 h2 q => SoFar.free_trans (h1 q) (h2 q)
      obtain ⟨st', v', r, E, h1, h2, h3, h4, h5⟩ := ih (decide (a = i)) st1 v1 hv1 (fun v' hv' hm => by
        have := hall v' hv' (trans hm1 (finer _ _ hm))
        rw [run, same v' hm, Option.isSome_map] at this
        exact this)
      exact ⟨st', v', r, (i, j) :: E, h1, trans hm1 (finer _ _ h2), by simp only [List.length_cons]; omega, fun w w' h => finer _ _ (h4 w w' h),
        fun w hw => by rw [run, same w (trans h2 (h4 _ _ hw)), h5 w hw]; rfl⟩

/-- If more than four halves are left, two elements could still be the greatest, or the least. -/
theorem two_left (n : Nat) (st : Nat → SoFar) (h : 5 ≤ total n st) :
    (∃ a b, a < n ∧ b < n ∧ a ≠ b ∧ (st a = .new ∨ st a = .top) ∧ (st b = .new ∨ st b = .top)) ∨
    (∃ a b, a < n ∧ b < n ∧ a ≠ b ∧ (st a = .new ∨ st a = .low) ∧ (st b = .new ∨ st b = .low)) := by
  apply Classical.byContradiction
  intro hno
  have few : ∀ (P : SoFar → Bool), (¬ ∃ a b, a < n ∧ b < n ∧ a ≠ b ∧ P (st a) = true ∧ P (st b) = true) → ((List.range n).filter fun i => P (st i)).length ≤ 1 := by
    intro P hP
    have hn : ((List.range n).filter fun i => P (st i)).Nodup := List.filter_sublist.nodup List.nodup_range
    match e : (List.range n).filter fun i => P (st i), hn with
    | [], _ => simp
    | [_], _ => simp
    | x :: y :: _, hn =>
      have hx : x ∈ (List.range n).filter fun i => P (st i) := by rw [e]; simp
      have hy : y ∈ (List.range n).filter fun i => P (st i) := by rw [e]; simp
      obtain ⟨hx1, hx2⟩ := List.mem_filter.1 hx
      obtain ⟨hy1, hy2⟩ := List.mem_filter.1 hy
      refine absurd ⟨x, y, List.mem_range.1 hx1, List.mem_range.1 hy1, fun h => ?_, hx2, hy2⟩ hP
      simp [h] at hn
  have c1 := few (fun k => decide (k = .new ∨ k = .top)) (fun ⟨a, b, h1, h2, h3, h4, h5⟩ => hno (.inl ⟨a, b, h1, h2, h3, by simpa using h4, by simpa using h5⟩))
  have c2 := few (fun k => decide (k = .new ∨ k = .low)) (fun ⟨a, b, h1, h2, h3, h4, h5⟩ => hno (.inr ⟨a, b, h1, h2, h3, by simpa using h4, by simpa using h5⟩))
  have bound : ∀ L : List Nat, (L.map fun i => (st i).weight).sum ≤
      2 * (L.filter fun i => decide (st i = .new ∨ st i = .top)).length + 2 * (L.filter fun i => decide (st i = .new ∨ st i = .low)).length := by
    intro L
    induction L with
    | nil => simp
    | cons i L ih =>
      simp only [List.map_cons, List.sum_cons, List.filter_cons]
      cases e : st i <;> simp [SoFar.weight] at ih ⊢ <;> omega
  have := bound (List.range n)
  unfold total at h
  omega

end Stl4go
