import Verif.Proofs.HeapMemRun
/-! # Several queues over one memory -/
namespace Stl4go
variable {T : Type} {P : T → Prop}

/-- The `impl` field suits the queue, which is a heap for its order. -/
def PQSpec.Ok (impl : PQImplM T Unit) : PQSpec T → Prop
  | .zero => impl = .nil
  | .made l m => impl.Is l ∧ StrictWeak l ∧ IsHeap l m

theorem KStep.lit {m : Mem T} {v : Sl} (xs : List T) (hx : ∀ x ∈ xs, P x) :
    KStep P m v (m.alloc xs) { off := m.top, len := xs.length, cap := xs.length } xs where
  wf := ⟨Nat.le_refl _, Nat.le_refl _⟩
  read := by rw [Sl.read_fresh m xs _ _ (Nat.le_refl _), List.take_length]
  top := by simp [Mem.alloc]
  place := .inr (.inl (Nat.le_refl _))
  frame k hk _ := by rw [Mem.alloc_cell, Mem.write_out _ _ _ _ (.inl hk)]
  vals _ k hk := by
    unfold Sl.Has at hk
    simp only at hk
    obtain ⟨i, rfl⟩ : ∃ i, k = m.top + i := ⟨k - m.top, by omega⟩
    rw [Mem.alloc_cell, Mem.write_in _ _ _ i (by omega)]
    exact hx _ (List.getElem_mem _)

theorem KStep.nil {m : Mem T} {v : Sl} : KStep P m v m Sl.empty [] :=
  ⟨(Fresh.nil m).wf, rfl, Nat.le_refl _, .inr (.inr rfl), fun _ _ _ => rfl, fun _ k hk => by simp [Sl.Has, Sl.empty] at hk⟩

variable [GoZero T] [GoOrd T] [LawfulGoOrd T]

theorem PQWOp.exec_step (grow : Nat → Nat → Nat) (op : PQWOp T) (h0 : P GoZero.zero) (hx : ∀ x ∈ PQWOp.given [(0, op)], P x)
    (ho : ∀ less, op = .newFunc less → StrictWeak less) {impl : PQImplM T Unit} {q : PQSpec T} {m : Mem T} {v : Sl} (hwf : v.WF m)
    (hq : q.Ok impl) (hr : v.read m = q.elems) :
    ∃ ob m' v' q', op.exec grow impl ⟨m, (), v⟩ = (ob, ⟨m', (), v'⟩) ∧ KStep P m v m' v' q'.elems ∧ PQWStep q op ob q' ∧ q'.Ok (op.implAfter impl) := by
  cases op with
  | new => exact ⟨.unit, m, Sl.empty, .made GoOrd.lt [], rfl, KStep.nil, .new _, rfl, LawfulGoOrd.weak, fun i hi => by simp at hi⟩
  | newFunc less =>
    exact ⟨.unit, m, Sl.empty, .made less [], rfl, KStep.nil, .newFunc _ _, answers_pure less, ho less rfl, fun i hi => by simp at hi⟩
  | newOf xs =>
    have hx' : ∀ x ∈ xs, P x := fun x h => hx x (by simp [PQWOp.given, h])
    have k1 : KStep P m v (m.alloc xs) { off := m.top, len := xs.length, cap := xs.length } xs := KStep.lit xs hx'
    obtain ⟨h', e1, e2, e3⟩ := makeHeapFunc_spec (less := GoOrd.lt) (LawfulGoOrd.weak (T := T)) xs
    obtain ⟨_, t', e4⟩ := makeHeapFuncM_refines (answers_pure (τ := Unit) GoOrd.lt) { off := m.top, len := xs.length, cap := xs.length }
      (⟨m.alloc xs, (), v⟩ : HS T Unit) (by rw [k1.read]; exact e1)
    have k2 : KStep P (m.alloc xs) { off := m.top, len := xs.length, cap := xs.length } _ _ h' :=
      KStep.rearrange k1.wf (by rw [k1.read]; exact e2)
    refine ⟨.unit, _, _, .made GoOrd.lt h', HS.observe_ok (x := PQM.newOf xs) (a := ()) ?_, k1.trans k2, .newOf _ _ _ e2, rfl, LawfulGoOrd.weak, e3⟩
    simp only [PQM.newOf, PQM.newOn, GoM.bind_def, HS.on, Sl.lit, makeMinHeapM_eq, e4, HS.assign]
  | op o =>
    cases q with
    | zero =>
      have hn : impl = .nil := hq
      subst hn
      have hl : v.len = 0 := by simpa [PQSpec.elems] using congrArg List.length hr
      have same : KStep P m v m v [] := by
        have := KStep.refl (P := P) hwf
        rwa [hr] at this
      cases o with
      | push x => exact ⟨.panicked, m, v, .zero, rfl, same, .zeroPush x, rfl⟩
      | pop => exact ⟨.panicked, m, v, .zero, rfl, same, .zeroPop, rfl⟩
      | top =>
        have eg : v.get 0 m = .panic m := Sl.get_panic _ _ _ (by omega)
        exact ⟨.panicked, m, v, .zero, HS.observe_panic (by simp only [PQM.top, GoM.bind_def, HS.recv, HS.on, eg]), same, .zeroTop, rfl⟩
      | clear =>
        have e := Sl.slice_zero v m 0 (Nat.zero_le _)
        simp only [Int.natCast_zero] at e
        have hv : ({ v with len := 0 } : Sl) = v := by cases v; cases hl; rfl
        rw [hv] at e
        exact ⟨.unit, m, v, .zero, HS.observe_ok (f := fun _ => .unit) (x := PQM.clear) (a := ()) (s := ⟨m, (), v⟩)
          (by simp only [PQM.clear, GoM.bind_def, HS.recv, HS.on, e, HS.assign]), same, .zeroClear, rfl⟩
      | len => exact ⟨.num 0, m, v, .zero, by rw [← hl]; rfl, same, .zeroLen, rfl⟩
      | isEmpty =>
        refine ⟨.flag true, m, v, .zero, ?_, same, .zeroIsEmpty, rfl⟩
        show (PQObs.flag (v.len == 0), _) = _
        simp [hl]
    | made l ms =>
      obtain ⟨hi, hw, H⟩ := hq
      simp only [PQSpec.elems] at hr
      obtain ⟨ob, m', v', t', s', e, k, p, H'⟩ := PQM.exec_step (P := P) grow hi hw o h0 (by
        intro x e; subst e; exact hx x (by simp [PQWOp.given])) () hwf (by rw [hr]; exact H)
      rw [hr] at p
      exact ⟨ob, m', v', .made l s', e, k, .op _ _ _ _ _ p, hi, hw, H'⟩

theorem PQWorld.run_inv (grow : Nat → Nat → Nat) {F : Nat → Prop} {m0 : Mem T} (h0 : P GoZero.zero) (ops : List (Nat × PQWOp T)) :
    ∀ {w : PQWorld T} {s : Nat → PQSpec T}, VWInv False F m0 ⟨w.mem, w.vars⟩ (fun i => (s i).elems) → (∀ i, (s i).Ok (w.impl i)) →
    PQWOp.Orders ops → (∀ x ∈ PQWOp.given ops, P x) → (∀ i k, (w.vars i).Has k → P (w.mem.cell k)) →
    ∃ s', PQWRun s ops (w.run grow ops).1 s' ∧
      VWInv False F m0 ⟨(w.run grow ops).2.mem, (w.run grow ops).2.vars⟩ (fun i => (s' i).elems) ∧
      ∀ i k, ((w.run grow ops).2.vars i).Has k → P ((w.run grow ops).2.mem.cell k) := by
  induction ops with
  | nil => intro w s h _ _ _ hp; exact ⟨s, .nil _, h, hp⟩
  | cons o ops ih =>
    intro w s h hok ho hx hp
    obtain ⟨i, op⟩ := o
    have hx1 : ∀ x ∈ PQWOp.given [(0, op)], P x := by
      intro x hm
      apply hx
      rcases op with _ | _ | _ | o
      · simp [PQWOp.given] at hm
      · simp [PQWOp.given] at hm
      · simp only [PQWOp.given, List.append_nil] at hm ⊢; exact List.mem_append_left _ hm
      · cases o <;> simp [PQWOp.given] at hm ⊢; exact .inl hm
    have hx2 : ∀ x ∈ PQWOp.given ops, P x := by
      intro x hm
      apply hx
      rcases op with _ | _ | _ | o
      · exact hm
      · exact hm
      · exact List.mem_append_right _ hm
      · cases o <;> simp [PQWOp.given, hm]
    obtain ⟨ob, m', v', q', e, st, qs, ok'⟩ := PQWOp.exec_step (P := P) grow op h0 hx1
      (fun less e => ho i less (by simp [e])) (h.wf i) (hok i) (h.read i)
    have hw := h.move i st.wf st.read st.top st.place st.frame (fun f => f.elim)
    have hr : (fun j => if j = i then q'.elems else (s j).elems) = (fun j => ((fun j => if j = i then q' else s j) j).elems) := by
      funext j
      by_cases hj : j = i <;> simp [hj]
    rw [hr] at hw
    have hp' : ∀ j k, ((if j = i then v' else w.vars j) : Sl).Has k → P (m'.cell k) := by
      intro j k hk
      by_cases hj : j = i
      · simp only [hj, if_true] at hk
        exact st.vals (hp i) k hk
      · simp only [hj, if_false] at hk
        have hd := h.disj j i hj k hk
        have ht := (h.wf j).2
        simp only at hd ht
        rw [st.frame k (by unfold Sl.Has at hk; simp only; omega) (by unfold Sl.Has at hd; simp only; omega)]
        exact hp j k hk
    have hok' : ∀ j, ((fun j => if j = i then q' else s j) j).Ok (if j = i then op.implAfter (w.impl i) else w.impl j) := by
      intro j
      by_cases hj : j = i
      · simp only [hj, if_true]; exact ok'
      · simp only [hj, if_false]; exact hok j
    obtain ⟨s', b1, b2, b3⟩ := ih (w := ⟨m', fun j => if j = i then v' else w.vars j, fun j => if j = i then op.implAfter (w.impl i) else w.impl j⟩) hw hok' (fun j less hm => ho j less (by simp [hm])) hx2 hp'
    simp only at e
    simp only [PQWorld.run, e]
    exact ⟨s', .cons _ _ _ _ _ _ _ _ qs b1, b2, b3⟩

omit [GoOrd T] [LawfulGoOrd T] in
theorem queues_init (m : Mem T) : VWInv False (· < m.top) m ⟨(PQWorld.init m).mem, (PQWorld.init m).vars⟩ (fun _ => ([] : List T)) where
  wf _ := (Fresh.nil m).wf
  read _ := rfl
  clean f := f.elim
  disj _ _ _ k h := by simp [Sl.Has, PQWorld.init, Sl.empty] at h
  others k hk := ⟨hk, rfl, fun _ h => by simp [Sl.Has, PQWorld.init, Sl.empty] at h⟩

end Stl4go
