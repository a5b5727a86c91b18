import Verif.Spec.SortAny
import Verif.Proofs.HeapAny
import Verif.Proofs.HeapMemApi
import Verif.Proofs.SortWitness
/-! # Lemmas: sorting with a comparison function that is any Go code -/
namespace Stl4go
variable {T τ : Type} {less : LessA T τ} {a : Sl}

theorem sortSwap_exchange {i j : Nat} (hi : i < a.len) (hj : j < a.len) (s : HS T τ) : HS.on (sortSwap a i j) s = .ok () (s.exchange a i j) := by
  unfold sortSwap
  simp only [HS.on, GoM.bind_def, Sl.get, Sl.put]
  rw [if_pos (by omega)]
  simp only []
  rw [if_pos (by omega)]
  simp only []
  rw [if_pos (by omega)]
  simp only []
  rw [if_pos (by omega)]
  simp only [HS.exchange, Int.toNat_natCast]
  congr 2
  refine Mem.ext' (fun k => ?_) rfl
  simp only [Mem.cell_write_one]

theorem HeapRuns.sortLess {α : Type} {b : Nat} {s : HS T τ} {Q : α → HS T τ → Prop} {f : Bool → GoM (HS T τ) α} {i j : Nat} (hi : i < a.len) (hj : j < a.len)
    (h : ∀ v s, HeapRuns less a b s Q (f v s)) : HeapRuns less a (b + 1) s Q (((funcSortableA a less).less i j >>= f) s) := by
  simp only [funcSortableA, GoM.bind_def, HS.on_get hi, HS.on_get hj]
  cases e : less (s.mem.cell (a.off + i)) (s.mem.cell (a.off + j)) s with
  | ok v s1 =>
    have := HeapRuns.after (Acts.call i j hi hj e (.stop s1)) (h v s1)
    rw [Nat.add_comm]; exact this
  | panic s1 => exact ⟨0, s, i, j, by omega, hi, hj, .stop s, e⟩
  | diverge => exact ⟨0, s, i, j, by omega, hi, hj, .stop s, e⟩

/-- A program compares and exchanges elements of the slice. -/
theorem SortProg.runs (p : SortProg) (hp : p.Within a.len) : ∀ s : HS T τ, HeapRuns less a p.calls s (fun _ _ => True) (p.run (funcSortableA a less) s) := by
  induction p with
  | done => intro s; exact HeapRuns.pure trivial
  | less i j k ih =>
    intro s
    obtain ⟨hi, hj, hk⟩ := hp
    refine HeapRuns.sortLess hi hj (fun v s => ?_)
    refine (ih v (hk v) s).mono ?_ (fun _ _ h => h)
    cases v
    · exact Nat.le_max_right _ _
    · exact Nat.le_max_left _ _
  | swap i j k ih =>
    intro s
    obtain ⟨hi, hj, hk⟩ := hp
    show HeapRuns less a k.calls s (fun _ _ => True) (((funcSortableA a less).swap i j >>= fun _ => k.run (funcSortableA a less)) s)
    have e : (funcSortableA a less).swap i j s = .ok () (s.exchange a i j) := sortSwap_exchange hi hj s
    rw [GoM.bind_def, e]
    have := HeapRuns.after (k := 0) (Acts.swap i j hi hj (.stop (s.exchange a i j))) (ih hk (s.exchange a i j))
    simpa using this

/-- Calls without access to the memory only change the state of the comparison function, so the slice is rearranged. -/
theorem Acts.rearranged {less : LessM T τ} {n : Nat} {s s' : HS T τ} (h : Acts less.wide a n s s') : Rearranged s.mem s'.mem a ∧ s'.heap = s.heap := by
  refine h.keeps (I := fun t => Rearranged s.mem t.mem a ∧ t.heap = s.heap) (fun x y t b t' ht e => ?_) (fun i j t hi hj ht => ?_)
    ⟨⟨⟨rfl, fun _ _ => rfl⟩, .refl _⟩, rfl⟩
  · simp only [LessM.wide, HS.call] at e
    split at e <;> cases e
    exact ht
  · obtain ⟨⟨⟨h1, h2⟩, h3⟩, h4⟩ := ht
    refine ⟨⟨⟨h1, fun k hk => ?_⟩, (exchange_perm a i j hi hj t).trans h3⟩, h4⟩
    rw [exchange_out a i j hi hj t k hk, h2 k hk]

theorem HS.on_eq {α : Type} (x : GoM (Mem T) α) (s : HS T τ) : HS.on x s = match x s.mem with
  | .ok v m => .ok v { s with mem := m }
  | .panic m => .panic { s with mem := m }
  | .diverge => .diverge := rfl

/-- If the comparison function answers like `l`, the program does to the slice what it does to a list with `l`. -/
theorem SortProg.run_answers {less : LessM T τ} {l : T → T → Bool} (ha : Answers less l) (p : SortProg) (m : Mem T) (hp : Sl) :
    ∀ {xs out : List T} (t : τ), xs.length = a.len → p.onList l xs = some out →
      ∃ t', p.run (funcSortableA a less.wide) ⟨m.write a.off xs, t, hp⟩ = .ok () ⟨m.write a.off out, t', hp⟩ := by
  induction p with
  | done => intro xs out t _ h; cases h; exact ⟨t, rfl⟩
  | less i j k ih =>
    intro xs out t hl h
    simp only [SortProg.onList] at h
    split at h
    · rename_i x y hx hy
      obtain ⟨hi, rfl⟩ := List.getElem?_eq_some_iff.1 hx
      obtain ⟨hj, rfl⟩ := List.getElem?_eq_some_iff.1 hy
      obtain ⟨t1, e⟩ := ha xs[i] xs[j] t
      obtain ⟨t', e'⟩ := ih _ t1 hl h
      refine ⟨t', ?_⟩
      simp only [SortProg.run, funcSortableA, GoM.bind_def, HS.on_eq, Sl.get_write a m xs hl i hi, Sl.get_write a m xs hl j hj, LessM.wide, HS.call, e]
      exact e'
    · cases h
  | swap i j k ih =>
    intro xs out t hl h
    simp only [SortProg.onList] at h
    split at h
    · rename_i x y hx hy
      obtain ⟨hi, rfl⟩ := List.getElem?_eq_some_iff.1 hx
      obtain ⟨hj, rfl⟩ := List.getElem?_eq_some_iff.1 hy
      obtain ⟨t', e'⟩ := ih t (by simpa using hl) h
      refine ⟨t', ?_⟩
      simp only [SortProg.run, funcSortableA, GoM.bind_def, HS.on_eq, sortSwap_eq a m xs hl i j hi hj]
      exact e'
    · cases h

theorem goSort_answers {less : LessM T τ} {l : T → T → Bool} (ha : Answers less l) (sort : Nat → SortProg) (s : HS T τ) {out : List T}
    (h : (sort (a.read s.mem).length).onList l (a.read s.mem) = some out) :
    ∃ t', goSort sort (funcSortableA a less.wide) s = .ok () ⟨s.mem.write a.off out, t', s.heap⟩ := by
  rw [Sl.read_length] at h
  obtain ⟨t', e⟩ := SortProg.run_answers (a := a) ha (sort a.len) s.mem s.heap s.st (by simp) h
  rw [Sl.write_read] at e
  exact ⟨t', e⟩

theorem sinkProg_within {k : SortProg} {n : Nat} (hk : k.Within n) : ∀ j, j < n → (sinkProg k j).Within n
  | 0, _ => hk
  | j + 1, h => ⟨h, by omega, fun b => by
      cases b
      · exact hk
      · exact ⟨h, by omega, sinkProg_within hk j (by omega)⟩⟩

theorem insertionFrom_within {n : Nat} : ∀ (r i : Nat), i + r ≤ n → (insertionFrom r i).Within n
  | 0, _, _ => trivial
  | r + 1, i, h => sinkProg_within (insertionFrom_within r (i + 1) (by omega)) i (by omega)

theorem insertion_sortsInside : SortsInside insertionProg := fun n => insertionFrom_within n 0 (by omega)

end Stl4go
