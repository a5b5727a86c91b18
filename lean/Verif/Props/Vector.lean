import Verif.Proofs.VectorRun
import Verif.Props.Transform
/-!
# Properties C40-C48: `/repo/vector.go`

A history names a vector variable for each operation; all variables start nil and share one memory. `grow` is any growth policy of
`append`. Theorems about one call take any memory `m` and any well-formed vector `v` in it, whatever its spare capacity.
-/
namespace Stl4go
variable {T σ : Type} [GoZero T]

/-! ## C40 -/

/-- C40: every history on any number of vectors gives the observations of sequences, out-of-range panics included; nothing hangs.
(Upside-down ranges are excluded by `Valid`; see C43.) -/
theorem C40_history (grow : Nat → Nat → Nat) (m : Mem T) (h : List (Nat × VOp T)) (hv : ∀ o ∈ h, o.2.Valid) :
    ((VWorld.init m).run grow h).1 = (VSeq.run (fun _ => []) h).1 ∧
    ∀ i, (((VWorld.init m).run grow h).2.vars i).read ((VWorld.init m).run grow h).2.mem = (VSeq.run (fun _ => []) h).2 i := by
  obtain ⟨a, b⟩ := VWInv.run grow h (VWInv.init m) hv
  exact ⟨a, b.read⟩

/-- C40: the same from any vectors that share no storage, for example made by `AsVector` from slices with spare capacity. -/
theorem C40_history_from (grow : Nat → Nat → Nat) (w : VWorld T) (hwf : ∀ i, (w.vars i).WF w.mem)
    (hd : ∀ i j, i ≠ j → ∀ k, (w.vars i).Has k → ¬ (w.vars j).Has k) (h : List (Nat × VOp T)) (hv : ∀ o ∈ h, o.2.Valid) :
    (w.run grow h).1 = (VSeq.run (fun i => (w.vars i).read w.mem) h).1 ∧
    ∀ i, ((w.run grow h).2.vars i).read (w.run grow h).2.mem = (VSeq.run (fun i => (w.vars i).read w.mem) h).2 i := by
  have inv : VWInv False (fun _ => False) w.mem w (fun i => (w.vars i).read w.mem) :=
    ⟨hwf, fun _ => rfl, fun f => f.elim, hd, fun _ f => f.elim⟩
  obtain ⟨a, b⟩ := VWInv.run grow h inv hv
  exact ⟨a, b.read⟩

/-- A history for the examples: growth, insertion in place and with reallocation, removal, a panic. -/
def vecDemo : List (Nat × VOp Int) :=
  [(0, .of [1, 2, 3]), (0, .reserve 6), (0, .insert 1 [7, 8]), (1, .pushBack 5), (0, .insert 0 [9, 9]), (0, .removeRange 1 3),
   (0, .values), (0, .at 9), (0, .popBack), (1, .values), (0, .removeIf (fun _ x => x < 8)), (0, .values)]

example : (∀ o ∈ vecDemo, o.2.Valid) ∧ ((VWorld.init (memOf [])).run (fun _ n => 2 * n) vecDemo).1 =
    [.unit, .unit, .unit, .unit, .unit, .unit, .list [9, 7, 8, 2, 3], .panicked, .val 3, .list [5], .unit, .list [9, 8]] := by
  constructor
  · simp [vecDemo, VOp.Valid]
  · decide +kernel

/-! ## C41 -/

omit [GoZero T] in
/-- C41: `At(i)` is element `i`, or a panic exactly when there is none. -/
theorem C41_at (i : Int) (m : Mem T) (v : Sl) :
    (∀ h : 0 ≤ i ∧ i < v.len, Vec.at i ⟨m, v⟩ = .ok ((v.read m)[i.toNat]'(by simp; omega)) ⟨m, v⟩) ∧
    (¬ (0 ≤ i ∧ i < v.len) → Vec.at i ⟨m, v⟩ = .panic ⟨m, v⟩) := by
  refine ⟨fun h => ?_, Vec.at_panic i⟩
  have := Vec.at_ok i.toNat (m := m) (v := v) (by simp; omega)
  rwa [Int.toNat_of_nonneg h.1] at this

/-- C41: `Set`. -/
theorem C41_set (i : Int) (x : T) (m : Mem T) (v : Sl) (hv : v.WF m) :
    (0 ≤ i ∧ i < v.len → ∃ m', Vec.set i x ⟨m, v⟩ = .ok () ⟨m', v⟩ ∧ v.read m' = (v.read m).set i.toNat x) ∧
    (¬ (0 ≤ i ∧ i < v.len) → Vec.set i x ⟨m, v⟩ = .panic ⟨m, v⟩) := by
  refine ⟨fun h => ?_, Vec.set_panic i x⟩
  obtain ⟨m', e, st, _⟩ := Vec.set_step i.toNat x hv (by omega)
  rw [Int.toNat_of_nonneg h.1] at e
  exact ⟨m', e, st.read⟩

/-- C41: `Insert` returns exactly when `0 <= i <= Len`, whatever `x` is; otherwise it panics, the vector has the same header and no cell
that existed before has changed. -/
theorem C41_insert (i : Int) (x : Sl) (m : Mem T) (v : Sl) (hv : v.WF m) (hx : x.WF m) :
    (0 ≤ i ∧ i ≤ v.len → ∃ m' v', Vec.insert i x ⟨m, v⟩ = .ok () ⟨m', v'⟩ ∧ v'.len = v.len + x.len) ∧
    (¬ (0 ≤ i ∧ i ≤ v.len) → ∃ m', Vec.insert i x ⟨m, v⟩ = .panic ⟨m', v⟩ ∧ v.read m' = v.read m ∧ ∀ k, k < m.top → m'.cell k = m.cell k) := by
  refine ⟨fun h => ?_, fun h => ?_⟩
  · obtain ⟨n, rfl⟩ : ∃ n : Nat, i = n := ⟨i.toNat, by omega⟩
    by_cases hc : v.len + x.len ≤ v.cap
    · exact ⟨_, _, Vec.insert_inPlace n x hv (by omega) hc, rfl⟩
    · obtain ⟨m', v', e, st, _⟩ := Vec.insert_grow n x hv hx (by omega) (by omega)
      refine ⟨m', v', e, ?_⟩
      have := congrArg List.length st.read
      simp at this
      omega
  · obtain ⟨m', e, st, hk⟩ := Vec.insert_panic i x hv h
    exact ⟨m', e, st.read, hk⟩

/-- C41: `Remove`. -/
theorem C41_remove (grow : Nat → Nat → Nat) (i : Int) (m : Mem T) (v : Sl) (hv : v.WF m) :
    (0 ≤ i ∧ i < v.len → ∃ m' v', Vec.remove grow i ⟨m, v⟩ = .ok () ⟨m', v'⟩ ∧ v'.read m' = (v.read m).eraseIdx i.toNat) ∧
    (¬ (0 ≤ i ∧ i < v.len) → Vec.remove grow i ⟨m, v⟩ = .panic ⟨m, v⟩) := by
  refine ⟨fun h => ?_, fun h => Vec.removeRange_panic grow i (i + 1) (by omega) (by omega)⟩
  obtain ⟨n, rfl⟩ : ∃ n : Nat, i = n := ⟨i.toNat, by omega⟩
  obtain ⟨m', v', e, st, _⟩ := Vec.removeRange_step grow n (n + 1) hv (by omega) (by omega)
  refine ⟨m', v', e, ?_⟩
  rw [st.read, List.eraseIdx_eq_take_drop_succ]
  simp

/-- C41: `PopBack` and `Back` return the last element, or panic exactly when there is none. -/
theorem C41_back (m : Mem T) (v : Sl) (hv : v.WF m) :
    (0 < v.len → ∃ s x, v.read m = s ++ [x] ∧ Vec.back ⟨m, v⟩ = .ok x ⟨m, v⟩ ∧ ∃ m' v', Vec.popBack ⟨m, v⟩ = .ok x ⟨m', v'⟩ ∧ v'.read m' = s) ∧
    (v.len = 0 → Vec.back ⟨m, v⟩ = .panic ⟨m, v⟩ ∧ Vec.popBack ⟨m, v⟩ = .panic ⟨m, v⟩) := by
  refine ⟨fun h => ?_, fun h => ⟨Vec.back_panic h, Vec.popBack_panic h⟩⟩
  obtain ⟨m', v', s, x, es, e, st, _⟩ := Vec.popBack_step hv h
  refine ⟨s, x, es, ?_, m', v', e, st.read⟩
  obtain ⟨s2, x2, es2, _, hg⟩ := Sl.last_split m v h
  rw [es] at es2
  obtain ⟨rfl, e2⟩ := List.append_inj' es2 rfl
  cases e2
  simp [Vec.back, GoM.bind_def, VS.on_ok hg]

example : Sl.WF (memOf [1, 2, 3, 0, 0]) ⟨0, 3, 5⟩ ∧ Vec.at 3 ⟨memOf [1, 2, 3, 0, 0], ⟨0, 3, 5⟩⟩ = .panic ⟨memOf [1, 2, 3, 0, 0], ⟨0, 3, 5⟩⟩ ∧
    Vec.at 2 ⟨memOf [1, 2, 3, 0, 0], ⟨0, 3, 5⟩⟩ = .ok 3 ⟨memOf [1, 2, 3, 0, 0], ⟨0, 3, 5⟩⟩ :=
  ⟨⟨by decide, by decide⟩, rfl, rfl⟩

/-! ## C42 -/

/-- C42 in full: after `Insert(i, x...)` the contents are `v[:i]`, what `x` held at the call, `v[i:]`, whatever `x` shares with `v`. -/
def C42_statement : Prop := ∀ (T : Type) [GoZero T] (i : Nat) (x v : Sl) (m : Mem T), v.WF m → x.WF m → i ≤ v.len →
  ∃ m' v', Vec.insert (i : Int) x ⟨m, v⟩ = .ok () ⟨m', v'⟩ ∧ v'.read m' = (v.read m).take i ++ x.read m ++ (v.read m).drop i

/-- C42 is false of the code: `v := [1,2,3]` with capacity 4, `v.Insert(0, v[1:2]...)` gives `[1,1,2,3]`, not `[2,1,2,3]`. -/
theorem C42_counterexample : ¬ C42_statement := by
  intro h
  obtain ⟨m', v', e, hr⟩ := h Int 0 ⟨1, 1, 3⟩ ⟨0, 3, 4⟩ (memOf [1, 2, 3, 0]) ⟨by decide, by decide⟩ ⟨by decide, by decide⟩ (by decide)
  have e2 : ∃ m'', Vec.insert (0 : Nat) ⟨1, 1, 3⟩ ⟨memOf [1, 2, 3, 0], ⟨0, 3, 4⟩⟩ = .ok () ⟨m'', ⟨0, 4, 4⟩⟩ ∧ Sl.read m'' ⟨0, 4, 4⟩ = [1, 1, 2, 3] :=
    ⟨_, rfl, by decide⟩
  obtain ⟨m'', e2, hr2⟩ := e2
  rw [e2] at e
  cases e
  rw [hr2] at hr
  revert hr
  decide

/-- C42, the part that holds: it is right when the vector must grow, and in place when `x` does not start in the part of the array after
position `i` that the tail is moved through. Missing: `x` starting after position `i` within the vector's storage. -/
theorem C42_insert_partial (i : Nat) (x v : Sl) (m : Mem T) (hv : v.WF m) (hx : x.WF m) (hi : i ≤ v.len)
    (hov : v.len + x.len ≤ v.cap → x.off ≤ v.off + i ∨ v.off + v.len + x.len ≤ x.off) :
    ∃ m' v', Vec.insert (i : Int) x ⟨m, v⟩ = .ok () ⟨m', v'⟩ ∧ v'.read m' = (v.read m).take i ++ x.read m ++ (v.read m).drop i := by
  obtain ⟨m', v', e, st, _⟩ := Vec.insert_step i x hv hx hi hov
  exact ⟨m', v', e, st.read⟩

/-- C42: what an in-place `Insert` does for every `x`: it inserts what `x` holds once the tail has moved up. -/
theorem C42_insert_inPlace (i : Nat) (x v : Sl) (m : Mem T) (hv : v.WF m) (hi : i ≤ v.len) (hc : v.len + x.len ≤ v.cap) :
    ∃ m' v', Vec.insert (i : Int) x ⟨m, v⟩ = .ok () ⟨m', v'⟩ ∧
      v'.read m' = (v.read m).take i ++ x.read (m.write (v.off + i + x.len) ((v.read m).drop i)) ++ (v.read m).drop i :=
  ⟨_, _, Vec.insert_inPlace i x hv hi hc, Sl.read_write_self _ { v with len := v.len + x.len } _ (by simp; omega)⟩

/-- C42: `Append` has no such exception: it appends what `x` held at the call for every `x`, overlapping or not. -/
theorem C42_append (grow : Nat → Nat → Nat) (x v : Sl) (m : Mem T) (hv : v.WF m) :
    ∃ m' v', Vec.append grow x ⟨m, v⟩ = .ok () ⟨m', v'⟩ ∧ v'.read m' = v.read m ++ x.read m := by
  obtain ⟨m', v', e, st, _⟩ := Vec.append_step grow x hv
  exact ⟨m', v', e, st.read⟩

-- aliasing within the hypotheses: `v.Insert(2, v[0:2]...)` in place
example : ∃ m', Vec.insert (2 : Nat) ⟨0, 2, 6⟩ ⟨memOf [1, 2, 3, 0, 0, 0], ⟨0, 3, 6⟩⟩ = .ok () ⟨m', ⟨0, 5, 6⟩⟩ ∧ Sl.read m' ⟨0, 5, 6⟩ = [1, 2, 1, 2, 3] :=
  ⟨_, rfl, by decide⟩

/-! ## C43 -/

/-- C43 in full. -/
def C43_statement : Prop := ∀ (T : Type) [GoZero T] (grow : Nat → Nat → Nat) (i j : Int) (m : Mem T) (v : Sl), v.WF m →
  (0 ≤ i ∧ i ≤ j ∧ j ≤ v.len → ∃ m' v', Vec.removeRange grow i j ⟨m, v⟩ = .ok () ⟨m', v'⟩ ∧
    v'.read m' = (v.read m).take i.toNat ++ (v.read m).drop j.toNat) ∧
  (¬ (0 ≤ i ∧ i ≤ j ∧ j ≤ v.len) → ∃ m' v', Vec.removeRange grow i j ⟨m, v⟩ = .panic ⟨m', v'⟩ ∧ v'.read m' = v.read m)

/-- C43 is false of the code: on `[1,2,3]`, `RemoveRange(2,1)` panics but leaves `[1,2,2,3]`. -/
theorem C43_counterexample : ¬ C43_statement := by
  intro h
  obtain ⟨m', v', e, hr⟩ := (h Int (fun _ n => n) 2 1 (memOf [1, 2, 3]) ⟨0, 3, 3⟩ ⟨by decide, by decide⟩).2 (by decide)
  have e2 : ∃ m'' v'', Vec.removeRange (fun _ n => n) 2 1 ⟨memOf [1, 2, 3], ⟨0, 3, 3⟩⟩ = .panic ⟨m'', v''⟩ ∧ v''.read m'' = [1, 2, 2, 3] :=
    ⟨_, _, rfl, by decide⟩
  obtain ⟨m'', v'', e2, hr2⟩ := e2
  rw [e2] at e
  cases e
  rw [hr2] at hr
  revert hr
  decide

/-- C43, the part that holds: the range is removed when `0 <= i <= j <= Len`; every other call panics; and a panicking call changes
nothing at all unless the range is upside down with both ends valid. Missing: `0 <= j < i <= Cap`, `j <= Len`. -/
theorem C43_removeRange_partial (grow : Nat → Nat → Nat) (i j : Int) (m : Mem T) (v : Sl) (hv : v.WF m) :
    (0 ≤ i ∧ i ≤ j ∧ j ≤ v.len → ∃ m' v', Vec.removeRange grow i j ⟨m, v⟩ = .ok () ⟨m', v'⟩ ∧
      v'.read m' = (v.read m).take i.toNat ++ (v.read m).drop j.toNat) ∧
    (¬ (0 ≤ i ∧ i ≤ j ∧ j ≤ v.len) → ∃ m' v', Vec.removeRange grow i j ⟨m, v⟩ = .panic ⟨m', v'⟩ ∧
      (¬ (0 ≤ j ∧ j < i ∧ j ≤ v.len ∧ i ≤ v.cap) → m' = m ∧ v' = v)) := by
  refine ⟨fun h => ?_, fun h => ?_⟩
  · obtain ⟨a, rfl⟩ : ∃ n : Nat, i = n := ⟨i.toNat, by omega⟩
    obtain ⟨b, rfl⟩ : ∃ n : Nat, j = n := ⟨j.toNat, by omega⟩
    obtain ⟨m', v', e, st, _⟩ := Vec.removeRange_step grow a b hv (by omega) (by omega)
    exact ⟨m', v', e, st.read⟩
  · by_cases hij : i ≤ j
    · exact ⟨m, v, Vec.removeRange_panic grow i j hij (by omega), fun _ => ⟨rfl, rfl⟩⟩
    · obtain ⟨m', v', _, e, _, hn, _⟩ := Vec.removeRange_reversed grow i j (by omega) hv
      exact ⟨m', v', e, fun h => hn (by omega)⟩

/-- C43: what is left after the remaining panics: `v[:i]` (reaching into the spare capacity if `i > Len`) followed by `v[j:]`, which is
longer than the vector was. -/
theorem C43_reversed (grow : Nat → Nat → Nat) (i j : Nat) (m : Mem T) (v : Sl) (hv : v.WF m) (hij : j < i) (hj : j ≤ v.len) (hi : i ≤ v.cap) :
    ∃ m' v', Vec.removeRange grow i j ⟨m, v⟩ = .panic ⟨m', v'⟩ ∧ v'.read m' = Sl.read m { v with len := i } ++ (v.read m).drop j ∧ v.len < v'.len := by
  obtain ⟨m', v', s', e, st, _, hs⟩ := Vec.removeRange_reversed grow i j (by omega) hv
  have hr := st.read
  rw [hs (by omega) (by omega) (by omega)] at hr
  refine ⟨m', v', e, by simpa using hr, ?_⟩
  have := congrArg List.length hr
  simp at this
  omega

example : ∃ m', Vec.removeRange (fun _ n => n) 1 3 ⟨memOf [1, 2, 3, 4], ⟨0, 4, 4⟩⟩ = .ok () ⟨m', ⟨0, 2, 4⟩⟩ ∧ Sl.read m' ⟨0, 4, 4⟩ = [1, 4, 0, 0] :=
  ⟨_, rfl, by decide⟩

/-! ## C44 -/

/-- C44: after every history, panicking calls and upside-down ranges included, the unused part of every vector's array is zero. -/
theorem C44_clean (grow : Nat → Nat → Nat) (m : Mem T) (h : List (Nat × VOp T)) (i : Nat) :
    Clean ((VWorld.init m).run grow h).2.mem (((VWorld.init m).run grow h).2.vars i) := by
  obtain ⟨_, b⟩ := VWInv.run_any grow h (VWInv.init m)
  exact b.clean trivial i

/-- C44: each operation by itself keeps the unused part zero, for any vector. -/
theorem C44_clean_step (grow : Nat → Nat → Nat) (op : VOp T) (m : Mem T) (v : Sl) (hv : v.WF m) (hc : Clean m v) :
    Clean (Vec.exec grow ⟨m, v⟩ op).2.mem (Vec.exec grow ⟨m, v⟩ op).2.v := by
  obtain ⟨_, m', v', _, e, st⟩ := Vec.exec_any grow op hv
  rw [e]
  exact st.clean hc

-- a history with spare capacity left by removals
example : let w := ((VWorld.init (memOf [])).run (fun _ n => 2 * n) vecDemo).2
    (w.vars 0).len = 2 ∧ (w.vars 0).cap = 7 ∧ Sl.read w.mem { w.vars 0 with len := 7 } = [9, 8, 0, 0, 0, 0, 0] := by decide +kernel

/-! ## C45 -/

/-- C45: `Reserve` keeps the contents; afterwards the capacity is at least `l`; nothing at all happens if it was already. -/
theorem C45_reserve (l : Int) (m : Mem T) (v : Sl) (hv : v.WF m) :
    ∃ m' v', Vec.reserve l ⟨m, v⟩ = .ok () ⟨m', v'⟩ ∧ v'.read m' = v.read m ∧ v'.len = v.len ∧ l ≤ v'.cap ∧ (l ≤ v.cap → v' = v ∧ m' = m) := by
  obtain ⟨m', v', e, st, hl, h1, h2, _⟩ := Vec.reserve_step l hv
  refine ⟨m', v', e, st.read, hl, ?_, h1⟩
  by_cases hc : l ≤ v.cap
  · rw [(h1 hc).1]; exact hc
  · have := h2 (by omega); omega

/-- C45 for `Shrink` in full. -/
def C45_statement : Prop := ∀ (T : Type) [GoZero T] (grow : Nat → Nat → Nat) (m : Mem T) (v : Sl), v.WF m →
  ∃ m' v', Vec.shrink grow ⟨m, v⟩ = .ok () ⟨m', v'⟩ ∧ v'.read m' = v.read m ∧ v'.cap = v'.len

/-- C45 is false of the code for a runtime that rounds allocations up: `append` to an empty slice may leave spare capacity. -/
theorem C45_counterexample : ¬ C45_statement := by
  intro h
  obtain ⟨m', v', e, _, hc⟩ := h Int (fun _ n => 2 * n) (memOf [1, 2, 3, 0]) ⟨0, 3, 4⟩ ⟨by decide, by decide⟩
  have e2 : ∃ m'', Vec.shrink (fun _ n => 2 * n) ⟨memOf [1, 2, 3, 0], ⟨0, 3, 4⟩⟩ = .ok () ⟨m'', ⟨4, 3, 6⟩⟩ := ⟨_, rfl⟩
  obtain ⟨m'', e2⟩ := e2
  rw [e2] at e
  cases e
  revert hc
  decide

/-- C45, the part that holds: `Shrink` keeps the contents, the capacity is what the runtime gives an `append` of `Len` elements to
nothing, and it is `Len` when the runtime does not round up, when the vector is empty or had no spare capacity. -/
theorem C45_shrink_partial (grow : Nat → Nat → Nat) (m : Mem T) (v : Sl) (hv : v.WF m) :
    ∃ m' v', Vec.shrink grow ⟨m, v⟩ = .ok () ⟨m', v'⟩ ∧ v'.read m' = v.read m ∧
      (grow 0 v.len ≤ v.len ∨ v.len = 0 ∨ v.cap = v.len → v'.cap = v.len) ∧ v'.cap ≤ max v.len (grow 0 v.len) := by
  obtain ⟨m', v', e, st, hc⟩ := Vec.shrink_step grow hv
  have h1 := hv.1
  refine ⟨m', v', e, st.read, fun h => ?_, ?_⟩
  · rw [hc]; split <;> omega
  · rw [hc]; split <;> omega

/-- C45 as seen through `Cap` and `Len`: `Cap` after `Reserve(l)` is at least `l`, and what it was if that was enough; `Cap` after `Shrink` is `Len` under the conditions above. -/
theorem C45_observed_partial (grow : Nat → Nat → Nat) (l : Int) (m : Mem T) (v : Sl) (hv : v.WF m) :
    (∃ c st, (do Vec.reserve l; let c ← Vec.cap; let n ← Vec.len; return (c, n) : GoM (VS T) (Int × Int)) ⟨m, v⟩ = .ok (c, (v.len : Int)) st ∧ l ≤ c ∧
      (∀ c0 st0, (Vec.cap (T := T)) ⟨m, v⟩ = .ok c0 st0 → l ≤ c0 → c = c0)) ∧
    (∃ c st, (do Vec.shrink grow; let c ← Vec.cap; let n ← Vec.len; return (c, n) : GoM (VS T) (Int × Int)) ⟨m, v⟩ = .ok (c, (v.len : Int)) st ∧
      (grow 0 v.len ≤ v.len ∨ v.len = 0 ∨ v.cap = v.len → c = v.len)) := by
  obtain ⟨m1, v1, e1, _, hl1, hc1, hs1⟩ := C45_reserve l m v hv
  obtain ⟨m2, v2, e2, hr2, hc2, _⟩ := C45_shrink_partial grow m v hv
  have hl2 : v2.len = v.len := by
    have := congrArg List.length hr2
    simpa using this
  constructor
  · refine ⟨v1.cap, ⟨m1, v1⟩, by simp [GoM.bind_def, e1, Vec.cap, Vec.len, VS.recv, hl1], hc1, fun c0 st0 e0 hle => ?_⟩
    simp [GoM.bind_def, Vec.cap, VS.recv] at e0
    rw [← e0.1] at hle ⊢
    rw [(hs1 hle).1]
  · exact ⟨v2.cap, ⟨m2, v2⟩, by simp [GoM.bind_def, e2, Vec.cap, Vec.len, VS.recv, hl2], fun hc => by rw [hc2 hc]⟩

example : ∃ m', Vec.shrink (fun _ n => n) ⟨memOf [1, 2, 3, 0], ⟨0, 3, 4⟩⟩ = .ok () ⟨m', ⟨4, 3, 3⟩⟩ ∧ Sl.read m' ⟨4, 3, 3⟩ = [1, 2, 3] := ⟨_, rfl, by decide⟩

/-! ## C46 -/

/-- C46: no operation changes a cell outside the vector's own array; a vector stays in its array or has a new one. -/
theorem C46_frame (grow : Nat → Nat → Nat) (op : VOp T) (m : Mem T) (v : Sl) (hv : v.WF m) :
    let r := (Vec.exec grow ⟨m, v⟩ op).2
    (∀ k, k < m.top → ¬ v.Has k → r.mem.cell k = m.cell k) ∧ (∀ k, r.v.Has k → v.Has k ∨ m.top ≤ k) := by
  obtain ⟨_, m', v', _, e, st⟩ := Vec.exec_any grow op hv
  rw [e]
  refine ⟨fun k hk hn => st.frame k hk (by unfold Sl.Has at hn; omega), fun k hk => ?_⟩
  have hp := st.place
  unfold Sl.Has at hk ⊢
  simp only at hk
  omega

/-- C46: an operation on `v` leaves a vector with other storage as it was, and still apart from `v`. -/
theorem C46_disjoint (grow : Nat → Nat → Nat) (op : VOp T) (m : Mem T) (v u : Sl) (hv : v.WF m) (hu : u.WF m) (hd : ∀ k, u.Has k → ¬ v.Has k) :
    let r := (Vec.exec grow ⟨m, v⟩ op).2
    u.read r.mem = u.read m ∧ u.WF r.mem ∧ ∀ k, u.Has k → ¬ r.v.Has k := by
  obtain ⟨a, b⟩ := C46_frame grow op m v hv
  obtain ⟨_, m', v', _, e, st⟩ := Vec.exec_any grow op hv
  rw [e] at a b ⊢
  have h1 := hu.1
  have h2 := hu.2
  refine ⟨Sl.read_congr fun k k1 k2 => a k (by omega) (hd k ⟨k1, by omega⟩), ⟨h1, Nat.le_trans h2 st.top⟩, fun k hk hc => ?_⟩
  rcases b k hc with h | h
  · exact hd k hk h
  · unfold Sl.Has at hk; omega

/-- C46: in every history the results of one vector are those of its own operations, whatever happens to the others. -/
theorem C46_independent (grow : Nat → Nat → Nat) (m : Mem T) (h : List (Nat × VOp T)) (hv : ∀ o ∈ h, o.2.Valid) (i : Nat) :
    VSeq.obsOf i h ((VWorld.init m).run grow h).1 = ((VWorld.init m).run grow (h.filter (fun o => o.1 = i))).1 := by
  rw [(C40_history grow m h hv).1, (C40_history grow m _ (fun o ho => hv o (List.mem_filter.1 ho).1)).1]
  exact VSeq.obsOf_run i h _ _ rfl

/-- C46: no history changes a cell that the rest of the program had before it. -/
theorem C46_rest (grow : Nat → Nat → Nat) (m : Mem T) (h : List (Nat × VOp T)) (k : Nat) (hk : k < m.top) :
    ((VWorld.init m).run grow h).2.mem.cell k = m.cell k := by
  obtain ⟨_, b⟩ := VWInv.run_any grow h (VWInv.init m)
  exact (b.others k hk).2.1

/-- C46: after an `Append` beyond the capacity the vector has storage nothing else had, and the old storage is as it was. -/
theorem C46_append_moves (grow : Nat → Nat → Nat) (x v : Sl) (m : Mem T) (hv : v.WF m) (hc : v.cap < v.len + x.len) :
    ∃ m' v', Vec.append grow x ⟨m, v⟩ = .ok () ⟨m', v'⟩ ∧ (∀ k, v'.Has k → m.top ≤ k) ∧ ∀ k, k < m.top → m'.cell k = m.cell k := by
  obtain ⟨v', m', e, _, _, hn⟩ := Sl.append_step grow v (x.read m) m hv
  have el : x.load m = .ok (x.read m) m := rfl
  obtain ⟨a, b⟩ := hn (by simpa using hc)
  refine ⟨m', v', by simp [Vec.append, GoM.bind_def, VS.on_ok e, VS.on_ok el], fun k hk => ?_, b⟩
  unfold Sl.Has at hk
  omega

example : ∃ m', Vec.append (fun _ n => n) ⟨0, 2, 4⟩ ⟨memOf [1, 2, 3, 4], ⟨1, 3, 3⟩⟩ = .ok () ⟨m', ⟨4, 5, 5⟩⟩ ∧
    Sl.read m' ⟨4, 5, 5⟩ = [2, 3, 4, 1, 2] ∧ Sl.read m' ⟨0, 4, 4⟩ = [1, 2, 3, 4] := ⟨_, rfl, by decide, by decide⟩

/-! ## C47 -/

/-- C47 in full. -/
def C47_statement : Prop := ∀ (T : Type) (i j : Int) (m : Mem T) (v : Sl), v.WF m →
  (0 ≤ i ∧ i ≤ j ∧ j ≤ v.len → ∃ it, Vec.iterateRange i j ⟨m, v⟩ = .ok it ⟨m, v⟩ ∧
    it.collect (v.cap + 1) m = .ok (((v.read m).take j.toNat).drop i.toNat) m) ∧
  (¬ (0 ≤ i ∧ i ≤ j ∧ j ≤ v.len) → Vec.iterateRange i j ⟨m, v⟩ = .panic ⟨m, v⟩)

/-- C47 is false of the code: on an empty vector with capacity 1, `IterateRange(0,1)` yields the element beyond the end. -/
theorem C47_counterexample : ¬ C47_statement := by
  intro h
  have := (h Int 0 1 (memOf [5]) ⟨0, 0, 1⟩ ⟨by decide, by decide⟩).2 (by decide)
  cases this

omit [GoZero T] in
/-- C47, the part that holds: it panics unless `0 <= i <= j <= Cap`, and otherwise iterates exactly the array cells `i..j-1`, which are
the elements `i..j-1` when `j <= Len`. Missing: a panic for `Len < j <= Cap`. -/
theorem C47_iterateRange_partial (i j : Int) (m : Mem T) (v : Sl) :
    (0 ≤ i ∧ i ≤ j ∧ j ≤ v.cap → ∃ it, Vec.iterateRange i j ⟨m, v⟩ = .ok it ⟨m, v⟩ ∧
      it.collect (v.cap + 1) m = .ok ((Sl.read m { v with len := j.toNat }).drop i.toNat) m) ∧
    (0 ≤ i ∧ i ≤ j ∧ j ≤ v.len → v.len ≤ v.cap → ∃ it, Vec.iterateRange i j ⟨m, v⟩ = .ok it ⟨m, v⟩ ∧
      it.collect (v.cap + 1) m = .ok (((v.read m).take j.toNat).drop i.toNat) m) ∧
    (¬ (0 ≤ i ∧ i ≤ j ∧ j ≤ v.cap) → Vec.iterateRange i j ⟨m, v⟩ = .panic ⟨m, v⟩) := by
  have main : 0 ≤ i ∧ i ≤ j ∧ j ≤ v.cap → ∃ it, Vec.iterateRange i j ⟨m, v⟩ = .ok it ⟨m, v⟩ ∧
      it.collect (v.cap + 1) m = .ok ((Sl.read m { v with len := j.toNat }).drop i.toNat) m := by
    intro h
    obtain ⟨a, rfl⟩ : ∃ n : Nat, i = n := ⟨i.toNat, by omega⟩
    obtain ⟨b, rfl⟩ : ∃ n : Nat, j = n := ⟨j.toNat, by omega⟩
    have e := Sl.slice_ok v m a b (by omega) (by omega)
    refine ⟨_, by simp [Vec.iterateRange, GoM.bind_def, GoM.pure_apply, VS.on_ok e]; rfl, ?_⟩
    rw [VIter.collect_all _ _ _ (by simp; omega)]
    have := Sl.read_sub m { v with len := b } a (b - a) (v.cap - a) (by simp; omega)
    simp only at this
    rw [this, List.take_of_length_le (by simp)]
    simp
  refine ⟨main, fun h hc => ?_, fun h => ?_⟩
  · obtain ⟨it, e, hr⟩ := main (by omega)
    refine ⟨it, e, ?_⟩
    rw [hr]
    have := Sl.read_sub m v 0 j.toNat v.cap (by omega)
    simp at this
    rw [← this]
  · simp [Vec.iterateRange, GoM.bind_def, VS.on_panic (Sl.slice_panic v m i j h)]

example : ∃ it, Vec.iterateRange 1 3 ⟨memOf [1, 2, 3, 4], ⟨0, 4, 4⟩⟩ = .ok it ⟨memOf [1, 2, 3, 4], ⟨0, 4, 4⟩⟩ ∧
    it.collect 5 (memOf [1, 2, 3, 4]) = .ok [2, 3] (memOf [1, 2, 3, 4]) := ⟨_, rfl, rfl⟩

/-! ## C48 -/

omit [GoZero T]

/-- C48: a loop over `Iterate` visits exactly the elements, in order, once each, and changes nothing. -/
theorem C48_iterate (m : Mem T) (v : Sl) : ∃ it, Vec.iterate ⟨m, v⟩ = .ok it ⟨m, v⟩ ∧ it.collect (v.len + 1) m = .ok (v.read m) m :=
  ⟨_, rfl, VIter.collect_all v m _ (by omega)⟩

/-- C48: a loop over `Iterate` that assigns through `Pointer` replaces each element by `f` of it and changes nothing else. -/
theorem C48_iterate_update (f : T → T) (m : Mem T) (v : Sl) : ∃ it, Vec.iterate ⟨m, v⟩ = .ok it ⟨m, v⟩ ∧
    ∃ m', it.update f (v.len + 1) m = .ok () m' ∧ v.read m' = (v.read m).map f ∧ OnlyIn m m' v :=
  ⟨_, rfl, _, VIter.update_all f v m _ (by omega), Sl.read_write_self _ _ _ (by simp), onlyIn_write _ _ _ (by simp)⟩

/-- C48: `ForEach`. -/
theorem C48_forEach (cb : σ → T → σ) (t : σ) (m : Mem T) (v : Sl) : Vec.forEach cb t ⟨m, v⟩ = .ok ((v.read m).foldl cb t) ⟨m, v⟩ :=
  Vec.forEach_eq cb t m v

/-- C48: `ForEachIf` stops at the first false. -/
theorem C48_forEachIf (cb : σ → T → σ × Bool) (t : σ) (m : Mem T) (v : Sl) :
    Vec.forEachIf cb t ⟨m, v⟩ = .ok (visitWhile1 cb t (v.read m)) ⟨m, v⟩ := Vec.forEachIf_eq cb t m v

/-- C48: `ForEachMutable`. -/
theorem C48_forEachMutable (cb : σ → T → σ × T) (t : σ) (m : Mem T) (v : Sl) :
    ∃ m', Vec.forEachMutable cb t ⟨m, v⟩ = .ok (updateAll1 cb t (v.read m)).1 ⟨m', v⟩ ∧ v.read m' = (updateAll1 cb t (v.read m)).2 ∧ OnlyIn m m' v :=
  ⟨_, Vec.forEachMutable_eq cb t m v, Sl.read_write_self _ _ _ (by simp [updateAll1_length]), onlyIn_write _ _ _ (by simp [updateAll1_length])⟩

/-- C48: `ForEachMutableIf`: the element for which the callback returns false is updated, those after it are not. -/
theorem C48_forEachMutableIf (cb : σ → T → σ × T × Bool) (t : σ) (m : Mem T) (v : Sl) :
    ∃ m', Vec.forEachMutableIf cb t ⟨m, v⟩ = .ok (updateWhile1 cb t (v.read m)).1 ⟨m', v⟩ ∧ v.read m' = (updateWhile1 cb t (v.read m)).2 ∧ OnlyIn m m' v :=
  ⟨_, Vec.forEachMutableIf_eq cb t m v, Sl.read_write_self _ _ _ (by simp [updateWhile1_length]), onlyIn_write _ _ _ (by simp [updateWhile1_length])⟩

-- a callback that counts its calls, adds the count to the element and stops at the second
example : ∃ m', Vec.forEachMutableIf (fun (c : Int) x => (c + 1, x + c, decide (c < 1))) 0 ⟨memOf [5, 5, 5], ⟨0, 3, 3⟩⟩ = .ok 2 ⟨m', ⟨0, 3, 3⟩⟩ ∧
    Sl.read m' ⟨0, 3, 3⟩ = [5, 6, 5] := ⟨_, rfl, by decide⟩

end Stl4go
