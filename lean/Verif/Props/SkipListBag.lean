import Verif.Proofs.SkipListBag
import Verif.Props.SkipListM
/-!
# Property C127: wrong answers do not harm a skip list that is never removed from

`cmp` may answer anything, differently each time, and may panic or hang. `same a k` is a relation that holds whenever `cmp a k` can
answer 0. What an operation may then do is `LooseStep`, as in C90: it changes at most one entry, and shows entries that are there.
-/
namespace Stl4go
variable {K V τ : Type} {cmp : CmpM K τ} {same : K → K → Bool}

/-- C127: in a history without `Remove` an operation panics or hangs only when a call of the compare function does, and then it did
nothing. The others find and overwrite only entries that were called equal to the key, `Insert` adds one entry or overwrites one, and
`Iterate` and `Len` show all entries. -/
theorem C127_history (hs : ∀ a k t t', cmp a k t = .ok 0 t' → same a k = true) (h : List (Nat × SMOp K V)) (t : τ)
    (hr : ∀ o ∈ h, ∀ k, o.2 ≠ .remove k) :
    ∃ l, FallibleRun (LooseStep same) (CmpPanics cmp) (CmpHangs cmp) [] (opsOf h) (SLM.run cmp ⟨newSkipList, t⟩ h).1 l ∧
      (SLM.run cmp ⟨newSkipList, t⟩ h).2.sl.Holds l ∧ (SLM.run cmp ⟨newSkipList, t⟩ h).2.sl.length = l.length := by
  obtain ⟨L, l, h1, h2⟩ := Bag.run hs h t (Bag.new (V := V)) hr
  exact ⟨l, h1, h2.holds, h2.len_eq⟩

/-- C127: if the compare function always returns, so does every operation. -/
theorem C127_total (hc : ∀ a b t, ∃ r t', cmp a b t = .ok r t') (h : List (Nat × SMOp K V)) (t : τ)
    (hr : ∀ o ∈ h, ∀ k, o.2 ≠ .remove k) :
    (SLM.run cmp ⟨newSkipList, t⟩ h).1.length = h.length ∧
      .panicked ∉ (SLM.run cmp ⟨newSkipList, t⟩ h).1 ∧ .hung ∉ (SLM.run cmp ⟨newSkipList, t⟩ h).1 := by
  obtain ⟨l, h1, _⟩ := C127_history (same := fun _ _ => true) (fun _ _ _ _ _ => rfl) h t hr
  obtain ⟨h2, h3⟩ := h1.returns hc
  exact ⟨by rw [h2]; simp [opsOf], h3⟩

/-- C127: no key is lost. The keys that iterating shows after `h1` are shown after more operations, in the same order among each
other, unless the list is cleared. -/
theorem C127_kept (h1 h2 : List (Nat × SMOp K V)) (t : τ) (hr : ∀ o ∈ h1 ++ h2, ∀ k, o.2 ≠ .remove k) (hc : ∀ o ∈ h2, o.2 ≠ .clear)
    {l1 : List (K × V)} (hl : (SLM.run cmp ⟨newSkipList, t⟩ h1).2.sl.Holds l1) :
    ∃ l2, (SLM.run cmp (SLM.run cmp ⟨newSkipList, t⟩ h1).2 h2).2.sl.Holds l2 ∧ (l1.map Prod.fst).Sublist (l2.map Prod.fst) := by
  have hs : ∀ a k t t', cmp a k t = .ok 0 t' → (fun _ _ => true : K → K → Bool) a k = true := fun _ _ _ _ _ => rfl
  obtain ⟨L, l, _, hb⟩ := Bag.run hs h1 t (Bag.new (V := V)) (fun o ho => hr o (by simp [ho]))
  obtain rfl : l = l1 := by
    have := hb.holds
    unfold SL.Holds at this hl
    rw [this] at hl; injection hl
  obtain ⟨L2, l2, hrun, hb2⟩ := Bag.run hs h2 (SLM.run cmp ⟨newSkipList, t⟩ h1).2.st hb (fun o ho => hr o (by simp [ho]))
  refine ⟨l2, hb2.holds, hrun.keys ?_ ?_⟩
  · intro op ho
    obtain ⟨o, hm, rfl⟩ := List.mem_map.1 ho
    exact hr o (by simp [hm])
  · intro ho
    obtain ⟨o, hm, e⟩ := List.mem_map.1 ho
    exact hc o hm e

/-- A compare function that answers by the number of the call and panics at every 8th. -/
def erratic : CmpM Int Nat := fun _ _ t => if t % 8 = 7 then .panic (t + 1) else .ok (if t % 5 = 4 then 0 else if t % 3 = 1 then 1 else -1) (t + 1)

/-- The entries are not in order, `Insert(2, 21)` and `Insert(5, 50)` overwrite entries with other keys, and `Find(1)` panics. But the
entries are all there. -/
example : (SLM.run erratic ⟨newSkipList, 0⟩ [(2 ^ 38, .insert 3 30), (2 ^ 38, .insert 1 10), (2 ^ 39, .insert 2 20), (2 ^ 38, .insert 2 21),
      (0, .find 1), (2 ^ 38, .insert 5 50), (0, .insert 5 51), (0, .iterate), (0, .lowerBound 3), (0, .len)]).1 =
    [.unit, .unit, .unit, .unit, .panicked, .unit, .unit, .entries [(3, 21), (1, 50), (5, 51), (2, 20)], .entries [(5, 51), (2, 20)],
      .num 4] := by decide +kernel

end Stl4go
