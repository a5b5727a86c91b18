import Verif.Spec.Stack
import Verif.Proofs.VectorRun
/-! # Lemmas about `Stack` -/
namespace Stl4go
variable {T : Type} [GoZero T]

/-- What an operation that leaves the elements `s'`, bottom first, does to memory. `P` holds of every value in the array. -/
structure KStep (P : T → Prop) (m : Mem T) (v : Sl) (m' : Mem T) (v' : Sl) (s' : List T) : Prop where
  wf : v'.WF m'
  read : v'.read m' = s'
  top : m.top ≤ m'.top
  place : (v'.off = v.off ∧ v'.cap = v.cap) ∨ m.top ≤ v'.off ∨ v'.cap = 0
  frame : ∀ k, k < m.top → (k < v.off ∨ v.off + v.cap ≤ k) → m'.cell k = m.cell k
  vals : (∀ k, v.Has k → P (m.cell k)) → ∀ k, v'.Has k → P (m'.cell k)

variable {P : T → Prop}

omit [GoZero T] in
/-- The memory is not changed and the stack is cut to `n` elements. -/
theorem KStep.cut {m : Mem T} {v : Sl} (h : v.WF m) (n : Nat) (hn : n ≤ v.len) :
    KStep P m v m { v with len := n } ((v.read m).take n) := by
  have h1 := h.1
  refine ⟨⟨by simp; omega, h.2⟩, ?_, Nat.le_refl _, .inl ⟨rfl, rfl⟩, fun _ _ _ => rfl, fun hp => hp⟩
  have := Sl.read_sub m v 0 n v.cap (by omega)
  simpa using this

omit [GoZero T] in
theorem KStep.refl {m : Mem T} {v : Sl} (h : v.WF m) : KStep P m v m v (v.read m) :=
  ⟨h, rfl, Nat.le_refl _, .inl ⟨rfl, rfl⟩, fun _ _ _ => rfl, fun hp => hp⟩

theorem Stk.push_step (grow : Nat → Nat → Nat) (x : T) (hx : P x) (h0 : P GoZero.zero) {m : Mem T} {v : Sl} (h : v.WF m) :
    ∃ m' v', Stk.push grow x ⟨m, v⟩ = .ok () ⟨m', v'⟩ ∧ KStep P m v m' v' (v.read m ++ [x]) := by
  obtain ⟨v', m', e, s, hin, hout⟩ := Sl.append_step grow v [x] m h
  have h1 := h.1
  refine ⟨m', v', by simp [Stk.push, GoM.bind_def, VS.on_ok e], s.wf, s.read, s.top, s.place, s.frame, ?_⟩
  intro hp k hk
  unfold Sl.Has at hk hp
  by_cases hc : v.len + [x].length ≤ v.cap
  · unfold Sl.append at e
    simp only [if_pos hc] at e
    cases e
    simp only at hk ⊢
    by_cases hkk : k = v.off + v.len
    · subst hkk
      have := Mem.write_in m (v.off + v.len) [x] 0 (by simp)
      simp only [Nat.add_zero, List.getElem_cons_zero] at this
      rw [this]; exact hx
    · rw [Mem.write_out _ _ _ _ (by simp; omega)]
      exact hp k hk
  · unfold Sl.append at e
    simp only [if_neg hc] at e
    cases e
    simp only at hk ⊢
    obtain ⟨i, rfl⟩ : ∃ i, k = m.top + i := ⟨k - m.top, by omega⟩
    have hi : i < (v.read m ++ [x] ++ List.replicate (max (v.len + [x].length) (grow v.cap (v.len + [x].length)) - (v.len + [x].length)) GoZero.zero).length := by
      simp at hk ⊢; omega
    rw [Mem.alloc_cell, Mem.write_in _ _ _ _ hi]
    have hm := List.getElem_mem hi
    generalize (v.read m ++ [x] ++ List.replicate (max (v.len + [x].length) (grow v.cap (v.len + [x].length)) - (v.len + [x].length)) GoZero.zero)[i] = y at hm
    simp only [List.mem_append, List.mem_singleton, List.mem_replicate] at hm
    rcases hm with (hm | rfl) | ⟨_, rfl⟩
    · simp only [Sl.read, List.mem_map, List.mem_range] at hm
      obtain ⟨j, hj, rfl⟩ := hm
      exact hp _ (by omega)
    · exact hx
    · exact h0

theorem Stk.newCap_step (h0 : P GoZero.zero) (c : Nat) {m : Mem T} {v : Sl} :
    ∃ m' v', Stk.newCap c ⟨m, v⟩ = .ok () ⟨m', v'⟩ ∧ KStep P m v m' v' [] ∧ v'.cap = c := by
  obtain ⟨m', v', e, st, hc⟩ := Vec.makeCap_step c (m := m) (v := v)
  refine ⟨m', v', e, ⟨st.wf, st.read, st.top, st.place, st.frame, ?_⟩, hc⟩
  intro _ k hk
  unfold Sl.Has at hk
  have e1 := Sl.make_ok (T := T) 0 c (by omega) m
  simp only [Int.natCast_zero] at e1
  simp only [Vec.makeCap, GoM.bind_def, VS.on_ok e1, VS.assign_apply] at e
  cases e
  simp only at hk ⊢
  obtain ⟨i, rfl⟩ : ∃ i, k = m.top + i := ⟨k - m.top, by omega⟩
  rw [Mem.alloc_cell, Mem.write_in _ _ _ _ (by simp; omega)]
  simpa using h0

omit [GoZero T] in
theorem reverse_split {s s' : List T} {x : T} (h : s = s' ++ [x]) : s.reverse = x :: s'.reverse := by simp [h]

/-- One operation; `s` is the stack, top first. -/
theorem Stk.exec_step (grow : Nat → Nat → Nat) (op : KOp T) (h0 : P GoZero.zero) (hx : ∀ x, op = .push x → P x) {m : Mem T} {v : Sl} {s : List T}
    (h : v.WF m) (hs : v.read m = s.reverse) :
    ∃ m' v', Stk.exec grow ⟨m, v⟩ op = ((KSeq.step s op).1, ⟨m', v'⟩) ∧ KStep P m v m' v' (KSeq.step s op).2.reverse := by
  have hl : s.length = v.len := by have := congrArg List.length hs; simpa using this.symm
  have h1 := h.1
  have same : KStep P m v m v s.reverse := by rw [← hs]; exact KStep.refl h
  -- the last element and the rest, for a stack that is not empty
  have last : ∀ x t, s = x :: t → v.get ((v.len : Int) - 1) m = .ok x m ∧ (v.slice 0 ((v.len : Int) - 1) m = .ok { v with len := t.length } m)
      ∧ KStep P m v m { v with len := t.length } t.reverse := by
    intro x t e
    subst e
    obtain ⟨s2, x2, es, hl2, hg⟩ := Sl.last_split m v (by simp at hl; omega)
    rw [hs] at es
    simp only [List.reverse_cons] at es
    obtain ⟨e1, e2⟩ := List.append_inj' es rfl
    cases e2
    simp only [List.length_cons] at hl
    refine ⟨hg, ?_, ?_⟩
    · have := Sl.slice_zero v m t.length (by omega)
      rw [show ((t.length : Nat) : Int) = (v.len : Int) - 1 by omega] at this
      exact this
    · have := KStep.cut (P := P) h t.length (by omega)
      rw [hs] at this
      simpa using this
  have none : s = [] → v.get ((v.len : Int) - 1) m = .panic m := by
    intro e; subst e
    exact Sl.get_panic v m _ (by simp at hl; omega)
  cases op with
  | new =>
    exact ⟨m, Sl.empty, rfl, (Fresh.nil m).wf, rfl, Nat.le_refl _, .inr (.inr rfl), fun _ _ _ => rfl, fun _ k hk => by simp [Sl.Has, Sl.empty] at hk⟩
  | newCap c =>
    simp only [KSeq.step, Stk.exec]
    by_cases hc : 0 ≤ c
    · obtain ⟨n, rfl⟩ : ∃ n : Nat, c = n := ⟨c.toNat, by omega⟩
      obtain ⟨m', v', e, st, _⟩ := Stk.newCap_step h0 n (m := m) (v := v)
      rw [if_pos hc]
      exact ⟨m', v', by simp [VS.observe, e], st⟩
    · rw [if_neg hc]
      have : Stk.newCap (T := T) c ⟨m, v⟩ = .panic ⟨m, v⟩ := Vec.makeCap_panic c (by omega)
      exact ⟨m, v, by simp [VS.observe, this], same⟩
  | push x =>
    obtain ⟨m', v', e, st⟩ := Stk.push_step grow x (hx x rfl) h0 h
    exact ⟨m', v', by simp [KSeq.step, Stk.exec, VS.observe, e], by rw [hs] at st; simpa [KSeq.step] using st⟩
  | pop =>
    cases s with
    | nil => exact ⟨m, v, by simp [KSeq.step, Stk.exec, VS.observe, Stk.pop, GoM.bind_def, VS.on_panic (none rfl)], same⟩
    | cons x t =>
      obtain ⟨a, b, c⟩ := last x t rfl
      exact ⟨m, _, by simp [KSeq.step, Stk.exec, VS.observe, Stk.pop, GoM.bind_def, GoM.pure_apply, VS.on_ok a, VS.on_ok b], c⟩
  | tryPop =>
    cases s with
    | nil => exact ⟨m, v, by simp at hl; simp [KSeq.step, Stk.exec, VS.observe, Stk.tryPop, GoM.bind_def, GoM.pure_apply, ← hl], same⟩
    | cons x t =>
      obtain ⟨a, b, c⟩ := last x t rfl
      refine ⟨m, { v with len := t.length }, ?_, c⟩
      simp only [KSeq.step, Stk.exec, VS.observe, Stk.tryPop, GoM.bind_def, VS.recv_apply]
      rw [if_neg (by simp at hl; omega)]
      simp [GoM.bind_def, GoM.pure_apply, VS.on_ok a, VS.on_ok b]
  | top =>
    cases s with
    | nil => exact ⟨m, v, by simp [KSeq.step, Stk.exec, VS.observe, Stk.top, GoM.bind_def, VS.on_panic (none rfl)], same⟩
    | cons x t =>
      obtain ⟨a, _, _⟩ := last x t rfl
      exact ⟨m, v, by simp [KSeq.step, Stk.exec, VS.observe, Stk.top, GoM.bind_def, VS.on_ok a], same⟩
  | clear =>
    have e := Sl.slice_zero v m 0 (Nat.zero_le _)
    simp only [Int.natCast_zero] at e
    have := KStep.cut (P := P) h 0 (Nat.zero_le _)
    exact ⟨m, { v with len := 0 }, by simp [KSeq.step, Stk.exec, VS.observe, Stk.clear, GoM.bind_def, VS.on_ok e], by simpa [KSeq.step] using this⟩
  | len => exact ⟨m, v, by simp [KSeq.step, Stk.exec, VS.observe, Stk.len, GoM.bind_def, GoM.pure_apply, hl], same⟩
  | isEmpty => exact ⟨m, v, by simp [KSeq.step, Stk.exec, VS.observe, Stk.isEmpty, GoM.bind_def, GoM.pure_apply, hl], same⟩

/-- Histories on several stacks: the sequences of the invariant are the stacks bottom first. -/
theorem VWInv.runStacks (grow : Nat → Nat → Nat) {F : Nat → Prop} {m0 : Mem T} (h0 : P GoZero.zero) (ops : List (Nat × KOp T)) :
    ∀ {w : VWorld T} {s : Nat → List T}, VWInv False F m0 w (fun i => (s i).reverse) → (∀ x ∈ KOp.pushed ops, P x) →
    (∀ i k, (w.vars i).Has k → P (w.mem.cell k)) →
    (w.runStacks grow ops).1 = (KSeq.run s ops).1 ∧ VWInv False F m0 (w.runStacks grow ops).2 (fun i => ((KSeq.run s ops).2 i).reverse) ∧
    ∀ i k, ((w.runStacks grow ops).2.vars i).Has k → P ((w.runStacks grow ops).2.mem.cell k) := by
  induction ops with
  | nil => intro w s h _ hp; exact ⟨rfl, h, hp⟩
  | cons o ops ih =>
    intro w s h hx hp
    obtain ⟨i, op⟩ := o
    have hx1 : ∀ x, op = .push x → P x := by
      intro x e; subst e
      exact hx x (by simp [KOp.pushed])
    have hx2 : ∀ x ∈ KOp.pushed ops, P x := by
      intro x hm
      apply hx
      cases op <;> simp [KOp.pushed, hm]
    obtain ⟨m', v', e, st⟩ := Stk.exec_step (P := P) grow op h0 hx1 (h.wf i) (h.read i)
    have hw := h.move i st.wf st.read st.top st.place st.frame (fun f => f.elim)
    have hr : (fun j => if j = i then (KSeq.step (s i) op).2.reverse else (s j).reverse)
        = (fun j => ((fun j => if j = i then (KSeq.step (s i) op).2 else s j) j).reverse) := by
      funext j
      by_cases hj : j = i <;> simp [hj]
    rw [hr] at hw
    have hp' : ∀ j k, ((if j = i then v' else w.vars j) : Sl).Has k → P (m'.cell k) := by
      intro j k hk
      by_cases hj : j = i
      · simp only [hj, if_true] at hk
        exact st.vals (hp i) k hk
      · simp only [hj, if_false] at hk
        have hd := h.disj j i hj k hk
        have ht := (h.wf j).2
        rw [st.frame k (by unfold Sl.Has at hk; omega) (by unfold Sl.Has at hd; omega)]
        exact hp j k hk
    obtain ⟨b1, b2, b3⟩ := ih hw hx2 hp'
    simp only [VWorld.runStacks, KSeq.run, e]
    exact ⟨by rw [b1], b2, b3⟩

end Stl4go
