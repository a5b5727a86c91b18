import Verif.Proofs.SkipListRefs
import Verif.Props.Transform
/-!
# C166: keys that are references

`NewSkipListFunc` takes any compare function, so keys may be slices or pointers that are compared by what they refer to. `SL.runRefs c t` (`Spec/SkipListRefs.lean`) lets a client
call methods and change the state `t` the compare function `c t` reads, in any order. `SL.runSlices` is the case of slices in memory compared by `Compare`.
-/
namespace Stl4go
variable {K V τ T : Type}

/-- C166, first part: whatever the client changes between the calls, and whatever the compare function answers, no call panics or hangs. Each call touches at most one entry, one that
compares equal at that time; iterating yields all entries, and `Len` is their number. -/
theorem C166_intact (c : τ → K → K → Int) (t : τ) (h : List (RefOp K V τ)) :
    ∃ t' sl obs l, SL.runRefs c t newSkipList h = .ret ((t', sl), obs) ∧ RefsRun (fun t a b => decide (c t a b = 0)) t [] h obs l ∧
      sl.Holds l ∧ sl.length = l.length := by
  obtain ⟨t', sl, ids, l, obs, h1, h2, h3⟩ := runRefs_loose c h t (SLInv.new (V := V) _)
  refine ⟨t', sl, obs, l, h1, ?_, SLInv.holds h2, ?_⟩
  · exact h3
  · rw [SL.length, h2.len_d, h2.len_m, Int.add_zero]

/-- C166, second part: as long as every change leaves the keys then in the map in ascending order, the list is a finite map with the order of the time. -/
theorem C166_ordered_partial {c : τ → K → K → Int} (hc : ∀ t, LawfulCmp (c t)) (t : τ) (h : List (RefOp K V τ))
    (ho : RefMap.Ordered (fun t a b => decide (c t a b < 0)) t [] h) :
    ∃ s, SL.runRefs c t newSkipList h = .ret (s, RefMap.run (fun t a b => decide (c t a b < 0)) t [] h) :=
  runRefs_ordered hc h t (SLInv.new _) ho

/-- C166, third part: whatever happened before, once the entries are in ascending order again the list is a finite map of these entries again. -/
theorem C166_recovers {c : τ → K → K → Int} (hc : ∀ t, LawfulCmp (c t)) {t t' : τ} {h : List (RefOp K V τ)} {sl : SL K V} {obs : List (SMObs K V)} {l : List (K × V)}
    (hr : SL.runRefs c t newSkipList h = .ret ((t', sl), obs)) (hl : sl.Holds l) (hs : SMap.Sorted (fun a b => decide (c t' a b < 0)) l)
    (h2 : List (RefOp K V τ)) (ho : RefMap.Ordered (fun t a b => decide (c t a b < 0)) t' l h2) :
    ∃ s, SL.runRefs c t' sl h2 = .ret (s, RefMap.run (fun t a b => decide (c t a b < 0)) t' l h2) := by
  obtain ⟨t1, sl1, ids, l1, obs1, a1, a2, _⟩ := runRefs_loose c h t (SLInv.new (V := V) _)
  rw [hr] at a1
  simp only [Outcome.ret.injEq, Prod.mk.injEq] at a1
  obtain ⟨⟨rfl, rfl⟩, rfl⟩ := a1
  have e : l1 = l := by
    have := a2.holds
    rw [SL.Holds, hl] at this
    injection this with this
    exact this.symm
  subst e
  exact runRefs_ordered hc h2 t' (a2.resort hs) ho

/-- C166, fourth part: `Compare` of slices in memory always returns, and is a lawful compare function whatever the memory holds: its order is the lexicographic order of the contents. -/
theorem C166_compare [GoOrd T] [LawfulGoOrd T] (m : Mem T) :
    (∀ a b : Sl, compare (a.read m) (b.read m) = .ret (sliceCmp m a b)) ∧ LawfulCmp (sliceCmp m) ∧
    ∀ a b : Sl, sliceCmp m a b < 0 ↔ lexLt (a.read m) (b.read m) = true := by
  refine ⟨fun a b => (sliceCmp_spec m a b).1, sliceCmp_lawful m, fun a b => ?_⟩
  rw [lexLt_iff]
  exact (sliceCmp_spec m a b).2.1

/-- The claim: with slices for keys, the list is a finite map from what slices hold at the time of a call. -/
def C166_statement : Prop :=
  ∀ (T V : Type) [GoOrd T] [LawfulGoOrd T] (m : Mem T) (h : List (RefOp Sl V (Mem T))),
    ∃ s, SL.runSlices m newSkipList h = .ret (s, (SMap.run lexLt [] (contentsOf m h)).1)

/-- C166, fifth part: it is, if no change alters what a slice holds while it is a key of the map. -/
theorem C166_slices_partial [GoOrd T] [LawfulGoOrd T] (m : Mem T) (h : List (RefOp Sl V (Mem T))) (hk : KeysKept m [] h) :
    ∃ s, SL.runSlices m newSkipList h = .ret (s, (SMap.run lexLt [] (contentsOf m h)).1) :=
  runSlices_kept h m (SLInv.new _) hk

/-- A slice of two elements at address `a`. -/
def exRefSl (a : Nat) : Sl := ⟨a, 2, 2⟩

/-- Two slices are inserted as keys, then the second is written, and what it held before is looked up with a third. -/
def exRefsBad : List (RefOp Sl Int (Mem Int)) :=
  [.call (2 ^ 38) (.insert (exRefSl 0) 10), .call (2 ^ 39) (.insert (exRefSl 2) 20), .change (memOf [1, 2, 0, 0, 3, 4]), .call 0 (.find (exRefSl 4)),
   .call 0 (.find (exRefSl 2)), .call 0 .iterate]

theorem exRefsBad_real : (SL.runSlices (memOf [1, 2, 3, 4, 3, 4]) newSkipList exRefsBad >>= fun r => .ret r.2) =
    .ret [.unit, .unit, .val none, .val none, .entries [([1, 2], 10), ([0, 0], 20)]] := by decide +kernel

theorem exRefsBad_map : (SMap.run lexLt [] (contentsOf (memOf [1, 2, 3, 4, 3, 4]) exRefsBad)).1 =
    [.unit, .unit, .val (some 20), .val none, .entries [([1, 2], 10), ([3, 4], 20)]] := by decide +kernel

/-- C166: the claim is false: the list stores the slice, not what it held. An entry whose key has been written is found neither under what it held nor under what it holds. -/
theorem C166_counterexample : ¬ C166_statement := by
  intro h
  obtain ⟨s, h⟩ := h Int Int (memOf [1, 2, 3, 4, 3, 4]) exRefsBad
  have := exRefsBad_real
  rw [h, exRefsBad_map] at this
  simp only [Outcome.ret_bind, Outcome.ret.injEq] at this
  exact absurd this (by decide +kernel)

/-! ## Examples -/

/-- The run above, with what was there before written back: the entry is found again, and meanwhile the list was iterated over and written. -/
def exRefsBack : List (RefOp Sl Int (Mem Int)) :=
  exRefsBad ++ [.call 0 (.update (exRefSl 0) 11), .change (memOf [1, 2, 3, 4, 3, 4])]

def exRefsOn : List (RefOp Sl Int (Mem Int)) := [.call 0 (.find (exRefSl 4)), .call 0 (.remove (exRefSl 4)), .call 0 .iterate]

example : (SL.runRefs sliceCmp (memOf [1, 2, 3, 4, 3, 4]) newSkipList exRefsBack >>= fun r => do
      let it ← r.1.2.iterate
      let l ← r.1.2.observeIter it
      let q ← SL.runRefs sliceCmp r.1.1 r.1.2 exRefsOn
      return (l, q.2)) =
    .ret ([(exRefSl 0, 11), (exRefSl 2, 20)], [.val (some 20), .flag true, .entries [(exRefSl 0, 11)]]) := by decide +kernel

/-- Memory that is written, but not where a key of the map is: `KeysKept` holds. The slice at 0 is used for many keys, all but one of them only to look something up. -/
def exRefsGood : List (RefOp Sl Int (Mem Int)) :=
  [.call (2 ^ 38) (.insert (exRefSl 2) 10), .change (memOf [5, 6, 1, 2, 0, 0]), .call (2 ^ 39) (.insert (exRefSl 0) 20), .call 0 (.find (exRefSl 2)),
   .call 0 (.remove (exRefSl 0)), .change (memOf [1, 2, 1, 2, 7, 7]), .call 0 (.find (exRefSl 0)), .call 0 .len]

example : KeysKept (memOf [1, 2, 1, 2, 3, 3]) [] exRefsGood := by
  simp only [exRefsGood, KeysKept]
  decide +kernel

example : (SL.runSlices (memOf [1, 2, 1, 2, 3, 3]) newSkipList exRefsGood >>= fun r => .ret r.2) =
    .ret [.unit, .unit, .val (some 10), .flag true, .val (some 10), .num 1] := by decide +kernel

/-- Pointers to numbers as keys, here the state is a factor by which the numbers are multiplied: any positive factor leaves the order as it is. -/
def exRefsScale (f : Int) (a b : Int) : Int := f * a - f * b

def exRefsUp : List (RefOp Int Int Int) :=
  [.call (2 ^ 38) (.insert 3 30), .call 0 (.insert 1 10), .change 5, .call (2 ^ 39) (.insert 2 20), .change (-1), .call 0 (.find 3), .call 0 .iterate]

/-- Up to the negative factor every change leaves the keys in order; a negative one turns the order round, and 3 is no longer found. -/
example : RefMap.Ordered (fun t a b => decide (exRefsScale t a b < 0)) 1 [] (exRefsUp.take 4) ∧
    ¬ RefMap.Ordered (fun t a b => decide (exRefsScale t a b < 0)) 1 [] exRefsUp := by
  simp only [exRefsUp, List.take, RefMap.Ordered, SMap.Sorted]
  decide +kernel

example : (SL.runRefs exRefsScale 1 newSkipList exRefsUp >>= fun r => .ret r.2) = .ret [.unit, .unit, .unit, .val none, .entries [(1, 10), (2, 20), (3, 30)]] := by
  decide +kernel

end Stl4go
