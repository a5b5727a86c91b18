import Verif.Proofs.SortAny
import Verif.Props.Sort
/-!
# Property C143: `SortFunc` and `StableSortFunc` with comparison functions that do more than compare (`/repo/sort.go`)

`sort` is any algorithm in place of `sort.Sort` or `sort.Stable`, as in C62. `SortsInside`, `SortContract` and `StableContract` are what is assumed about it; insertion sort fulfils them.
-/
namespace Stl4go
variable {T τ : Type}

/-- C143: whatever the comparison function does, sorting compares and exchanges elements of the slice as they are at that moment, as often at most as the algorithm does for this length;
it panics or hangs only inside a call of the comparison function. -/
theorem C143_runs {sort : Nat → SortProg} (hs : SortsInside sort) (less : LessA T τ) (a : Sl) (s : HS T τ) :
    HeapRuns less a (sort a.len).calls s (fun _ _ => True) (sortFuncA sort a less s) ∧
    HeapRuns less a (sort a.len).calls s (fun _ _ => True) (stableSortFuncA sort a less s) :=
  ⟨(sort a.len).runs (hs a.len) s, (sort a.len).runs (hs a.len) s⟩

/-- C143: a comparison function with a state of its own, which may panic or hang: if the call returns, and also after a panic, the slice has the elements it had and nothing else
changed; a panic or an endless loop comes from the comparison function. -/
theorem C143_panics {sort : Nat → SortProg} (hs : SortsInside sort) (less : LessM T τ) (a : Sl) (s : HS T τ) :
    match sortFuncA sort a (fun x y => HS.call (less x y)) s with
    | .ok _ s' => Rearranged s.mem s'.mem a ∧ s'.heap = s.heap
    | .panic s' => Rearranged s.mem s'.mem a ∧ s'.heap = s.heap ∧ PanicsWith less s'.st
    | .diverge => Hangs less := by
  have h := (C143_runs hs less.wide a s).1
  show match sortFuncA sort a less.wide s with
    | .ok _ s' => Rearranged s.mem s'.mem a ∧ s'.heap = s.heap
    | .panic s' => Rearranged s.mem s'.mem a ∧ s'.heap = s.heap ∧ PanicsWith less s'.st
    | .diverge => Hangs less
  cases e : sortFuncA sort a less.wide s with
  | ok v s' =>
    rw [e] at h
    obtain ⟨_, n, _, h⟩ := h
    exact h.rearranged
  | panic s' =>
    rw [e] at h
    obtain ⟨n, s1, i, j, _, _, _, h, hp⟩ := h
    have hr := h.rearranged
    simp only [LessM.wide, HS.call] at hp
    split at hp <;> cases hp
    rename_i t ht
    exact ⟨hr.1, hr.2, _, _, _, ht⟩
  | diverge =>
    rw [e] at h
    obtain ⟨n, s1, i, j, _, _, _, h, hp⟩ := h
    simp only [LessM.wide, HS.call] at hp
    split at hp <;> cases hp
    rename_i ht
    exact ⟨_, _, _, ht⟩

/-- C143: if the comparison function always returns, and always the answer of one strict weak order, whatever else it does with its state, the slice is sorted by that order. -/
theorem C143_effects {sort : Nat → SortProg} (hs : SortContract sort) (less : LessM T τ) (l : T → T → Bool) (ha : Answers less l) (hl : StrictWeak l) (a : Sl) (s : HS T τ) :
    ∃ s', sortFuncA sort a (fun x y => HS.call (less x y)) s = .ok () s' ∧ Rearranged s.mem s'.mem a ∧ SortedBy l (a.read s'.mem) ∧ s'.heap = s.heap := by
  obtain ⟨out, h1, h2⟩ := hs T l hl (a.read s.mem)
  have hp := SortProg.onList_perm _ h1
  have hlen : out.length = a.len := by simpa using hp.length_eq
  obtain ⟨t', e⟩ := goSort_answers (a := a) ha sort s h1
  refine ⟨_, e, ⟨onlyIn_write _ _ _ (by omega), ?_⟩, ?_, rfl⟩
  · rw [Sl.read_write_self _ _ _ hlen]; exact hp
  · rw [Sl.read_write_self _ _ _ hlen]; exact h2

/-- C143: and `StableSortFunc` leaves exactly the stable arrangement. -/
theorem C143_stable {stable : Nat → SortProg} (hs : StableContract stable) (less : LessM T τ) (l : T → T → Bool) (ha : Answers less l) (hl : StrictWeak l) (a : Sl) (s : HS T τ) :
    ∃ s', stableSortFuncA stable a (fun x y => HS.call (less x y)) s = .ok () s' ∧ a.read s'.mem = sortedStably l (a.read s.mem) ∧ OnlyIn s.mem s'.mem a ∧ s'.heap = s.heap := by
  obtain ⟨out, h1, h2, h3⟩ := hs T l hl (a.read s.mem)
  have hp := SortProg.onList_perm _ h1
  have hlen : out.length = a.len := by simpa using hp.length_eq
  obtain ⟨t', e⟩ := goSort_answers (a := a) ha stable s h1
  refine ⟨_, e, ?_, onlyIn_write _ _ _ (by omega), rfl⟩
  rw [Sl.read_write_self _ _ _ hlen]
  exact stable_eq hl h2 h3

/-- C143: a comparison function that itself only rearranges the slice loses and invents no element; a cell outside the slice that it does not write stays as it is. Both also hold after a panic,
as far as the panicking call itself kept to it. -/
theorem C143_elements {sort : Nat → SortProg} (hs : SortsInside sort) (less : LessA T τ) (a : Sl) (s s' : HS T τ)
    (h : sortFuncA sort a less s = .ok () s' ∨ sortFuncA sort a less s = .panic s') :
    ((∀ x y t b t', less x y t = .ok b t' ∨ less x y t = .panic t' → (a.read t'.mem).Perm (a.read t.mem)) → (a.read s'.mem).Perm (a.read s.mem)) ∧
    (∀ k, k < a.off ∨ a.off + a.len ≤ k → (∀ x y t b t', less x y t = .ok b t' ∨ less x y t = .panic t' → t'.mem.cell k = t.mem.cell k) → s'.mem.cell k = s.mem.cell k) := by
  have key : ∀ I : HS T τ → Prop, I s → (∀ i j t, i < a.len → j < a.len → I t → I (t.exchange a i j)) →
      (∀ x y t b t', less x y t = .ok b t' ∨ less x y t = .panic t' → I t → I t') → I s' := by
    intro I hi hx hl
    have hr := (C143_runs hs less a s).1
    rcases h with h | h <;> rw [h] at hr
    · obtain ⟨_, n, _, hr⟩ := hr
      exact hr.keeps (I := I) (fun x y t b t' ht e => hl x y t b t' (.inl e) ht) hx hi
    · obtain ⟨n, s1, i, j, _, _, _, hr, hp⟩ := hr
      exact hl _ _ s1 true s' (.inr hp) (hr.keeps (I := I) (fun x y t b t' ht e => hl x y t b t' (.inl e) ht) hx hi)
  refine ⟨fun hl => ?_, fun k hk hl => ?_⟩
  · exact key (fun t => (a.read t.mem).Perm (a.read s.mem)) (.refl _) (fun i j t hi hj ht => (exchange_perm a i j hi hj t).trans ht)
      (fun x y t b t' e ht => (hl x y t b t' e).trans ht)
  · exact key (fun t => t.mem.cell k = s.mem.cell k) rfl (fun i j t hi hj ht => (exchange_out a i j hi hj t k hk).trans ht)
      (fun x y t b t' e ht => (hl x y t b t' e).trans ht)

/-- C143: with a comparison function without effects the calls are those of C62, C63 and C89. -/
theorem C143_same (sort : Nat → SortProg) (less : T → T → Bool) (a : Sl) (s : HS T τ) :
    sortFuncA sort a (fun x y => pure (less x y)) s = HS.on (sortFunc sort a less) s := by
  have key : ∀ (p : SortProg) (s : HS T τ), p.run (funcSortableA a (fun x y => pure (less x y))) s = HS.on (p.run (funcSortable a less)) s := by
    intro p
    induction p with
    | done => intro s; rfl
    | less i j k ih =>
      intro s
      simp only [SortProg.run, funcSortableA, funcSortable, GoM.bind_def, HS.on_eq]
      cases a.get (i : Int) s.mem with
      | ok x m =>
        simp only
        cases a.get (j : Int) m with
        | ok y m => simp only [GoM.pure_apply]; exact ih _ _
        | panic m => rfl
        | diverge => rfl
      | panic m => rfl
      | diverge => rfl
    | swap i j k ih =>
      intro s
      simp only [SortProg.run, funcSortableA, funcSortable, GoM.bind_def, HS.on_eq]
      cases sortSwap a i j s.mem with
      | ok x m => simp only; exact ih _
      | panic m => rfl
      | diverge => rfl
  exact key _ s

/-! ## Concrete cases -/

example : SortsInside insertionProg ∧ SortContract insertionProg ∧ StableContract insertionProg := ⟨insertion_sortsInside, insertion_sorts, insertion_stable⟩

/-- A comparison function that counts its calls and panics in the call with this number. -/
def countingLess (limit : Nat) : LessM Int Nat := fun x y t => if t = limit then .panic t else .ok (decide (x < y)) (t + 1)

/-- What is left of seven cells, and the counter. -/
def sortSeen : Res (HS Int Nat) Unit → Option (Bool × List Int × Nat)
  | .ok _ s => some (true, Sl.read s.mem ⟨0, 7, 7⟩, s.st)
  | .panic s => some (false, Sl.read s.mem ⟨0, 7, 7⟩, s.st)
  | .diverge => none

/-- With the limit not reached the four elements are sorted with six calls; with a panic in the fifth call they are rearranged only. -/
example : sortSeen (sortFuncA insertionProg ⟨1, 4, 5⟩ (fun x y => HS.call (countingLess 9 x y)) ⟨memOf [9, 3, 1, 2, 1, 0, 7], 0, Sl.empty⟩) = some (true, [9, 1, 1, 2, 3, 0, 7], 6) ∧
    sortSeen (sortFuncA insertionProg ⟨1, 4, 5⟩ (fun x y => HS.call (countingLess 4 x y)) ⟨memOf [9, 3, 1, 2, 1, 0, 7], 0, Sl.empty⟩) = some (false, [9, 1, 2, 1, 3, 0, 7], 4) := by decide +kernel

/-- A comparison function that exchanges the first two elements each time: the elements do not end up sorted, but nothing is lost. -/
example : sortSeen (sortFuncA insertionProg ⟨1, 4, 5⟩ (fun x y s => .ok (decide (x < y)) (s.exchange ⟨1, 4, 5⟩ 0 1)) ⟨memOf [9, 3, 1, 2, 4, 0, 7], 0, Sl.empty⟩) = some (true, [9, 3, 1, 2, 4, 0, 7], 0) := by decide +kernel

end Stl4go
