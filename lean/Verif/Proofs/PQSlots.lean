import Verif.Proofs.HeapMemWorld
import Verif.Proofs.StackSlots
/-! # The unused slots of priority queues -/
namespace Stl4go
variable {T : Type}

theorem Sl.unused_full (m : Mem T) (v : Sl) (h : v.cap ≤ v.len) : v.unused m = [] := by
  have : v.cap - v.len = 0 := by omega
  simp [Sl.unused, Sl.read, this]

theorem Sl.unused_congr {m m' : Mem T} {v : Sl} (h : ∀ k, v.off + v.len ≤ k → k < v.off + v.cap → m'.cell k = m.cell k) : v.unused m' = v.unused m := by
  unfold Sl.unused Sl.read
  apply List.map_congr_left
  intro i hi
  simp only [List.mem_range] at hi
  exact h _ (by simp only; omega) (by simp only; omega)

theorem Sl.unused_length (m : Mem T) (v : Sl) : (v.unused m).length = v.cap - v.len := by simp [Sl.unused]

theorem Sl.unused_getElem (m : Mem T) (v : Sl) (i : Nat) (h : i < (v.unused m).length) : (v.unused m)[i] = m.cell (v.off + v.len + i) := by
  simp [Sl.unused, Sl.read_getElem]

/-- Shortening a slice leaves its last elements in front of the unused slots. -/
theorem Sl.unused_cut (m : Mem T) (v : Sl) (n : Nat) (h : n ≤ v.len) (hc : v.len ≤ v.cap) :
    Sl.unused m { v with len := n } = (v.read m).drop n ++ v.unused m := by
  apply List.ext_getElem
  · simp [Sl.unused_length]; omega
  · intro i h1 h2
    rw [Sl.unused_getElem]
    simp only [List.getElem_append, List.length_drop, Sl.read_length, List.getElem_drop, Sl.read_getElem, Sl.unused_getElem]
    split
    · congr 1; omega
    · congr 1; omega

/-- Appending one element takes the first unused slot, or moves to a new array. -/
theorem Sl.append_unused [GoZero T] (grow : Nat → Nat → Nat) (x : T) {m m' : Mem T} {v v' : Sl} (hc : v.len ≤ v.cap)
    (e : v.append grow [x] m = .ok v' m') (ys : List T) (hy : ys.length = v'.len) :
    Sl.unused (m'.write v'.off ys) v' =
      if v.unused m = [] then List.replicate (grow v.len (v.len + 1) - (v.len + 1)) GoZero.zero else (v.unused m).tail := by
  have hu := Sl.unused_length m v
  have hs : Sl.unused (m'.write v'.off ys) v' = v'.unused m' := Sl.unused_congr (fun k h1 h2 => Mem.write_out _ _ _ _ (by omega))
  rw [hs]
  by_cases h : v.len + [x].length ≤ v.cap
  · rw [Sl.append_fits grow v [x] m h] at e
    cases e
    simp only [List.length_singleton] at h
    rw [if_neg (by intro e; rw [e] at hu; simp at hu; omega)]
    apply List.ext_getElem
    · simp [Sl.unused_length]; omega
    · intro i h1 h2
      rw [Sl.unused_getElem, List.getElem_tail, Sl.unused_getElem, Mem.write_out _ _ _ _ (by simp; omega)]
      simp only [List.length_singleton]
      congr 1; omega
  · rw [Sl.append_grow grow v [x] m h] at e
    cases e
    simp only [List.length_singleton] at h ⊢
    have hcl : v.cap = v.len := by omega
    rw [if_pos (Sl.unused_full m v (by omega)), hcl]
    apply List.ext_getElem
    · simp [Sl.unused_length]; omega
    · intro i h1 h2
      simp only [List.length_replicate] at h2
      rw [Sl.unused_getElem, Mem.alloc_cell, List.getElem_replicate]
      simp only
      rw [Nat.add_assoc, Mem.write_in _ _ _ (v.len + 1 + i) (by simp; omega)]
      rw [List.getElem_append_right (by simp), List.getElem_replicate]

variable [GoZero T] [GoOrd T] [LawfulGoOrd T]

/-- One operation: what becomes of the unused slots. -/
theorem PQWOp.exec_unused (grow : Nat → Nat → Nat) (op : PQWOp T) (ho : ∀ less, op = .newFunc less → StrictWeak less) {impl : PQImplM T Unit}
    {q : PQSpec T} {m : Mem T} {v : Sl} (hwf : v.WF m) (hq : q.Ok impl) (hr : v.read m = q.elems) :
    (op.exec grow impl ⟨m, (), v⟩).2.heap.unused (op.exec grow impl ⟨m, (), v⟩).2.mem =
      op.leaves grow q (v.unused m) (op.exec grow impl ⟨m, (), v⟩).1 := by
  have hlen : q.elems.length = v.len := by rw [← hr]; simp
  cases op with
  | new => exact Sl.unused_full _ _ (Nat.le_refl _)
  | newFunc less => exact Sl.unused_full _ _ (Nat.le_refl _)
  | newOf xs =>
    obtain ⟨h', e1, e2, e3⟩ := makeHeapFunc_spec (less := GoOrd.lt) (LawfulGoOrd.weak (T := T)) xs
    have k1 : KStep (fun _ => True) m v (m.alloc xs) { off := m.top, len := xs.length, cap := xs.length } xs := KStep.lit xs (fun _ _ => trivial)
    obtain ⟨_, t', e4⟩ := makeHeapFuncM_refines (answers_pure (τ := Unit) GoOrd.lt) { off := m.top, len := xs.length, cap := xs.length }
      (⟨m.alloc xs, (), v⟩ : HS T Unit) (by rw [k1.read]; exact e1)
    have e5 : PQWOp.exec grow impl ⟨m, (), v⟩ (.newOf xs) = (.unit, ⟨(m.alloc xs).write m.top h', t', { off := m.top, len := xs.length, cap := xs.length }⟩) := by
      refine HS.observe_ok (f := fun _ => .unit) (x := PQM.newOf xs) (a := ()) ?_
      simp only [PQM.newOf, PQM.newOn, GoM.bind_def, HS.on, Sl.lit, makeMinHeapM_eq, e4, HS.assign]
    rw [e5]
    exact Sl.unused_full _ _ (Nat.le_refl _)
  | op o =>
    cases q with
    | zero =>
      have hn : impl = .nil := hq
      subst hn
      have hl : v.len = 0 := by simpa [PQSpec.elems] using hlen.symm
      cases o with
      | push x => rfl
      | pop => rfl
      | top =>
        have eg : v.get 0 m = .panic m := Sl.get_panic _ _ _ (by omega)
        have e : PQWOp.exec grow .nil ⟨m, (), v⟩ (.op .top) = (.panicked, ⟨m, (), v⟩) :=
          HS.observe_panic (by simp only [PQM.top, GoM.bind_def, HS.recv, HS.on, eg])
        rw [e]; rfl
      | clear =>
        have e := Sl.slice_zero v m 0 (Nat.zero_le _)
        simp only [Int.natCast_zero] at e
        have e2 : PQWOp.exec grow .nil ⟨m, (), v⟩ (.op .clear) = (.unit, ⟨m, (), { v with len := 0 }⟩) :=
          HS.observe_ok (f := fun _ => .unit) (x := PQM.clear) (a := ()) (s := ⟨m, (), v⟩)
            (by simp only [PQM.clear, GoM.bind_def, HS.recv, HS.on, e, HS.assign])
        rw [e2]
        show Sl.unused m { v with len := 0 } = _
        rw [Sl.unused_cut m v 0 (Nat.zero_le _) hwf.1, hr]; rfl
      | len => rfl
      | isEmpty => rfl
    | made l ms =>
      obtain ⟨hi, hw, H⟩ := hq
      simp only [PQSpec.elems] at hr hlen
      have H' : IsHeap l (v.read m) := by rw [hr]; exact H
      cases o with
      | push x =>
        obtain ⟨less, ha, e⟩ := PQM.push_is grow x hi
        obtain ⟨h', e1, e2, e3⟩ := pushHeapFunc_spec hw (v.read m) x H'
        obtain ⟨v', m', t', e4, e5, e6⟩ := pushHeapFuncM_refines ha grow x (⟨m, (), v⟩ : HS T Unit) hwf e1
        have e7 : PQWOp.exec grow impl ⟨m, (), v⟩ (.op (.push x)) = (.unit, ⟨m'.write v'.off h', t', v'⟩) := HS.observe_ok (by rw [e]; exact e6)
        rw [e7]
        simp only [PQWOp.leaves, PQSpec.elems, hlen]
        exact Sl.append_unused grow x hwf.1 e4 h' e5
      | pop =>
        obtain ⟨less, ha, e⟩ := PQM.pop_is hi
        by_cases hv : v.len = 0
        · have e7 : PQWOp.exec grow impl ⟨m, (), v⟩ (.op .pop) = (.panicked, ⟨m, (), v⟩) :=
            HS.observe_panic (by rw [e]; exact popHeapFuncM_empty m () v hv)
          rw [e7]; rfl
        · obtain ⟨h', e1, e2, e3⟩ := popHeapFunc_spec hw (v.read m) (by simp; omega) H'
          obtain ⟨e7, t', e4⟩ := popHeapFuncM_refines ha (⟨m, (), v⟩ : HS T Unit) hwf.1 e1
          simp only at e7 e4
          have e8 : PQWOp.exec grow impl ⟨m, (), v⟩ (.op .pop) = (.val _, ⟨m.write v.off (h' ++ [(v.read m)[0]'(by simp; omega)]), t', { v with len := h'.length }⟩) :=
            HS.observe_ok (by rw [e]; exact e4)
          rw [e8]
          show Sl.unused (m.write v.off (h' ++ [(v.read m)[0]'(by simp; omega)])) { v with len := h'.length } = (v.read m)[0]'(by simp; omega) :: v.unused m
          rw [Sl.unused_cut _ v _ (by omega) hwf.1, Sl.read_write_self _ _ _ (by simp; omega), List.drop_left]
          have : v.unused (m.write v.off (h' ++ [(v.read m)[0]'(by simp; omega)])) = v.unused m :=
            Sl.unused_congr (fun k h1 h2 => Mem.write_out _ _ _ _ (by simp; omega))
          rw [this]; rfl
      | top =>
        by_cases hv : v.len = 0
        · have eg : v.get 0 m = .panic m := Sl.get_panic _ _ _ (by omega)
          have e : PQWOp.exec grow impl ⟨m, (), v⟩ (.op .top) = (.panicked, ⟨m, (), v⟩) :=
            HS.observe_panic (by simp only [PQM.top, GoM.bind_def, HS.recv, HS.on, eg])
          rw [e]; rfl
        · have eg : v.get 0 m = .ok ((v.read m)[0]'(by simp; omega)) m := by
            have := Sl.get_ok v m 0 (by omega)
            simpa using this
          have e : PQWOp.exec grow impl ⟨m, (), v⟩ (.op .top) = (.val ((v.read m)[0]'(by simp; omega)), ⟨m, (), v⟩) :=
            HS.observe_ok (by simp only [PQM.top, GoM.bind_def, HS.recv, HS.on, eg])
          rw [e]; rfl
      | clear =>
        have e := Sl.slice_zero v m 0 (Nat.zero_le _)
        simp only [Int.natCast_zero] at e
        have e2 : PQWOp.exec grow impl ⟨m, (), v⟩ (.op .clear) = (.unit, ⟨m, (), { v with len := 0 }⟩) :=
          HS.observe_ok (f := fun _ => .unit) (x := PQM.clear) (a := ()) (s := ⟨m, (), v⟩)
            (by simp only [PQM.clear, GoM.bind_def, HS.recv, HS.on, e, HS.assign])
        rw [e2]
        show Sl.unused m { v with len := 0 } = _
        rw [Sl.unused_cut m v 0 (Nat.zero_le _) hwf.1, hr]; rfl
      | len => rfl
      | isEmpty => rfl

theorem PQWorld.run_unused (grow : Nat → Nat → Nat) {F : Nat → Prop} {m0 : Mem T} (ops : List (Nat × PQWOp T)) :
    ∀ {w : PQWorld T} {s : Nat → PQSpec T}, VWInv False F m0 ⟨w.mem, w.vars⟩ (fun i => (s i).elems) → (∀ i, (s i).Ok (w.impl i)) →
    PQWOp.Orders ops →
    ∃ s' e', PQArrRun grow s (fun i => (w.vars i).unused w.mem) ops (w.run grow ops).1 s' e' ∧
      ∀ i, ((w.run grow ops).2.vars i).read (w.run grow ops).2.mem = (s' i).elems ∧ ((w.run grow ops).2.vars i).unused (w.run grow ops).2.mem = e' i := by
  induction ops with
  | nil => intro w s h _ _; exact ⟨s, _, .nil _ _, fun i => ⟨h.read i, rfl⟩⟩
  | cons o ops ih =>
    intro w s h hok ho
    obtain ⟨i, op⟩ := o
    have hu := PQWOp.exec_unused grow op (fun less e => ho i less (by simp [e])) (h.wf i) (hok i) (h.read i)
    obtain ⟨ob, m', v', q', e, st, qs, ok'⟩ := PQWOp.exec_step (P := fun _ => True) grow op trivial (fun _ _ => trivial)
      (fun less e => ho i less (by simp [e])) (h.wf i) (hok i) (h.read i)
    have hw := h.move i st.wf st.read st.top st.place st.frame (fun f => f.elim)
    have hr : (fun j => if j = i then q'.elems else (s j).elems) = (fun j => ((fun j => if j = i then q' else s j) j).elems) := by
      funext j
      by_cases hj : j = i <;> simp [hj]
    rw [hr] at hw
    simp only at e hu
    rw [e] at hu
    simp only at hu
    have hun : (fun j => ((if j = i then v' else w.vars j) : Sl).unused m') =
        (fun j => if j = i then op.leaves grow (s i) ((w.vars i).unused w.mem) ob else (w.vars j).unused w.mem) := by
      funext j
      by_cases hj : j = i
      · simp only [hj, if_true]; exact hu
      · simp only [hj, if_false]
        have ht := (h.wf j).2
        simp only at ht
        refine Sl.unused_congr (fun k h1 h2 => ?_)
        have hk : (w.vars j).Has k := by unfold Sl.Has; omega
        have hd := h.disj j i hj k hk
        simp only at hd
        exact st.frame k (by simp only; omega) (by unfold Sl.Has at hd; simp only; omega)
    have hok' : ∀ j, ((fun j => if j = i then q' else s j) j).Ok (if j = i then op.implAfter (w.impl i) else w.impl j) := by
      intro j
      by_cases hj : j = i
      · simp only [hj, if_true]; exact ok'
      · simp only [hj, if_false]; exact hok j
    obtain ⟨s', e', b1, b2⟩ := ih (w := ⟨m', fun j => if j = i then v' else w.vars j, fun j => if j = i then op.implAfter (w.impl i) else w.impl j⟩) hw hok' (fun j less hm => ho j less (by simp [hm]))
    simp only [hun] at b1
    simp only [PQWorld.run, e]
    exact ⟨s', e', .cons _ _ _ _ _ _ _ _ _ _ qs b1, b2⟩

end Stl4go
