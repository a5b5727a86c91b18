import Verif.Proofs.Stack
import Verif.Proofs.HeapMemRun

/-!
Helper lemmas for C84: the exact contents of the arrays of stacks.
-/

namespace Stl4go
variable {T : Type} [GoZero T]

/-- The array of the stack with field `v` is `sl`. -/
structure SlotsAt (m : Mem T) (v : Sl) (sl : KSlots T) : Prop where
  len : v.len = sl.1.length
  all : Sl.read m { v with len := v.cap } = sl.1.reverse ++ sl.2

omit [GoZero T] in
theorem SlotsAt.cap {m : Mem T} {v : Sl} {sl : KSlots T} (h : SlotsAt m v sl) : v.cap = sl.1.length + sl.2.length := by
  have := congrArg List.length h.all
  simpa using this

omit [GoZero T] in
theorem SlotsAt.read {m : Mem T} {v : Sl} {sl : KSlots T} (h : SlotsAt m v sl) : v.read m = sl.1.reverse := by
  have := Sl.read_take m { v with len := v.cap } v.len (by have := h.cap; have := h.len; simp; omega)
  rw [h.all, List.take_left' (by rw [h.len]; simp)] at this
  exact this

omit [GoZero T] in
theorem SlotsAt.of_same {m m' : Mem T} {v : Sl} {sl : KSlots T} (h : SlotsAt m v sl) (he : ∀ k, v.Has k → m'.cell k = m.cell k) : SlotsAt m' v sl := by
  refine ⟨h.len, ?_⟩
  rw [← h.all]
  apply List.ext_getElem (by simp)
  intro i h1 h2
  rw [Sl.read_getElem, Sl.read_getElem]
  simp at h1
  exact he _ (by unfold Sl.Has; simp only; omega)

theorem Sl.append_fits (grow : Nat → Nat → Nat) (v : Sl) (ys : List T) (m : Mem T) (hc : v.len + ys.length ≤ v.cap) :
    v.append grow ys m = .ok { v with len := v.len + ys.length } (m.write (v.off + v.len) ys) := by unfold Sl.append; simp only [if_pos hc]

theorem Sl.append_grow (grow : Nat → Nat → Nat) (v : Sl) (ys : List T) (m : Mem T) (hc : ¬ v.len + ys.length ≤ v.cap) :
    v.append grow ys m = .ok { off := m.top, len := v.len + ys.length, cap := max (v.len + ys.length) (grow v.cap (v.len + ys.length)) }
      (m.alloc (v.read m ++ ys ++ List.replicate (max (v.len + ys.length) (grow v.cap (v.len + ys.length)) - (v.len + ys.length)) GoZero.zero)) := by
  unfold Sl.append; simp only [if_neg hc]

theorem SlotsAt.push (grow : Nat → Nat → Nat) (x : T) {m : Mem T} {v : Sl} {sl : KSlots T} (h : SlotsAt m v sl) :
    ∃ m' v', Stk.push grow x ⟨m, v⟩ = .ok () ⟨m', v'⟩ ∧ SlotsAt m' v' (KSlots.step grow sl (.push x)) := by
  obtain ⟨s, g⟩ := sl
  have hcap := h.cap
  have hlen := h.len
  simp only at hcap hlen
  cases g with
  | nil =>
    have hc : ¬ v.len + [x].length ≤ v.cap := by simp at hcap ⊢; omega
    have e := Sl.append_grow grow v [x] m hc
    refine ⟨_, _, by simp only [Stk.push, GoM.bind_def, VS.recv_apply, VS.on_ok e, VS.assign_apply]; rfl, ?_, ?_⟩
    · simp [KSlots.step, hlen]
    · simp only [KSlots.step]
      rw [h.read, Sl.read_fresh _ _ _ _ (by simp; omega)]
      simp only [List.length_nil, Nat.add_zero] at hcap
      rw [List.take_of_length_le (by simp; omega)]
      simp only [hlen, hcap, List.length_singleton, List.reverse_cons]
      congr 2
      omega
  | cons y g =>
    have hc : v.len + [x].length ≤ v.cap := by simp at hcap ⊢; omega
    have e := Sl.append_fits grow v [x] m hc
    refine ⟨_, _, by simp only [Stk.push, GoM.bind_def, VS.recv_apply, VS.on_ok e, VS.assign_apply]; rfl, ?_, ?_⟩
    · simp [KSlots.step, hlen]
    · simp only [KSlots.step]
      have hall := h.all
      simp only [List.length_cons] at hcap
      apply List.ext_getElem?
      intro i
      have hi := congrArg (·[i]?) hall
      simp only [Sl.read_getElem?] at hi ⊢
      by_cases hk : i = v.len
      · subst hk
        have := Mem.write_in m (v.off + v.len) [x] 0 (by simp)
        simp only [Nat.add_zero] at this
        rw [if_pos (by omega), this]
        simp [hlen]
      · rw [Mem.write_out _ _ _ _ (by simp; omega), hi]
        simp only [List.reverse_cons, List.append_assoc]
        by_cases hlt : i < s.length
        · rw [List.getElem?_append_left (by simpa using hlt), List.getElem?_append_left (by simpa using hlt)]
        · rw [List.getElem?_append_right (by simp; omega), List.getElem?_append_right (by simp; omega)]
          obtain ⟨n, hn⟩ : ∃ n, i - s.reverse.length = n + 1 := ⟨i - s.length - 1, by simp; omega⟩
          rw [hn]
          simp

theorem SlotsAt.exec (grow : Nat → Nat → Nat) (op : KOp T) {m : Mem T} {v : Sl} {sl : KSlots T} (h : SlotsAt m v sl) :
    SlotsAt (Stk.exec grow ⟨m, v⟩ op).2.mem (Stk.exec grow ⟨m, v⟩ op).2.v (KSlots.step grow sl op) := by
  have hcap := h.cap
  have hlen := h.len
  have pops : ∀ x s g, sl = (x :: s, g) → v.get ((v.len : Int) - 1) m = .ok x m ∧ v.slice 0 ((v.len : Int) - 1) m = .ok { v with len := s.length } m ∧
      SlotsAt m { v with len := s.length } (s, x :: g) := by
    rintro x s g rfl
    simp only [List.length_cons] at hcap hlen
    obtain ⟨s2, x2, es, hl2, hg⟩ := Sl.last_split m v (by omega)
    rw [h.read] at es
    simp only [List.reverse_cons] at es
    obtain ⟨e1, e2⟩ := List.append_inj' es rfl
    cases e2
    refine ⟨hg, ?_, rfl, ?_⟩
    · have := Sl.slice_zero v m s.length (by omega)
      rw [show ((s.length : Nat) : Int) = (v.len : Int) - 1 by omega] at this
      exact this
    · have := h.all
      simpa using this
  have none : ∀ g, sl = ([], g) → v.get ((v.len : Int) - 1) m = .panic m := by
    rintro g rfl
    exact Sl.get_panic v m _ (by simp at hlen; omega)
  cases op with
  | new => exact ⟨rfl, rfl⟩
  | newCap c =>
    obtain ⟨s, g⟩ := sl
    simp only [KSlots.step, Stk.exec]
    by_cases hc : 0 ≤ c
    · obtain ⟨n, rfl⟩ : ∃ n : Nat, c = n := ⟨c.toNat, by omega⟩
      have e1 := Sl.make_ok (T := T) 0 n (by omega) m
      simp only [Int.natCast_zero] at e1
      rw [if_pos hc]
      have e : Stk.newCap (n : Int) ⟨m, v⟩ = .ok () ⟨m.alloc (List.replicate n GoZero.zero), ⟨m.top, 0, n⟩⟩ := by
        simp only [Stk.newCap, GoM.bind_def, VS.on_ok e1, VS.assign_apply]
      simp only [VS.observe, e]
      refine ⟨rfl, ?_⟩
      simp only [Int.toNat_natCast, List.reverse_nil, List.nil_append]
      rw [Sl.read_fresh _ _ _ _ (by simp), List.take_of_length_le (by simp)]
    · rw [if_neg hc]
      have : Stk.newCap (T := T) c ⟨m, v⟩ = .panic ⟨m, v⟩ := Vec.makeCap_panic c (by omega)
      simp only [VS.observe, this]
      exact h
  | push x =>
    obtain ⟨m', v', e, st⟩ := h.push grow x
    simp only [Stk.exec, VS.observe, e]
    exact st
  | pop =>
    obtain ⟨_ | ⟨x, s⟩, g⟩ := sl
    · simp only [Stk.exec, VS.observe, Stk.pop, GoM.bind_def, VS.recv_apply, VS.on_panic (none g rfl)]
      exact h
    · obtain ⟨a, b, c⟩ := pops x s g rfl
      simp only [Stk.exec, VS.observe, Stk.pop, GoM.bind_def, VS.recv_apply, VS.on_ok a, VS.on_ok b, VS.assign_apply, GoM.pure_apply]
      exact c
  | tryPop =>
    obtain ⟨_ | ⟨x, s⟩, g⟩ := sl
    · simp only [List.length_nil] at hlen
      simp only [Stk.exec, VS.observe, Stk.tryPop, GoM.bind_def, VS.recv_apply, if_pos hlen, GoM.pure_apply]
      exact h
    · obtain ⟨a, b, c⟩ := pops x s g rfl
      simp only [List.length_cons] at hlen
      simp only [Stk.exec, VS.observe, Stk.tryPop, GoM.bind_def, VS.recv_apply, if_neg (show ¬ v.len = 0 by omega), VS.on_ok a, VS.on_ok b, VS.assign_apply, GoM.pure_apply]
      exact c
  | top =>
    obtain ⟨_ | ⟨x, s⟩, g⟩ := sl
    · simp only [Stk.exec, VS.observe, Stk.top, GoM.bind_def, VS.recv_apply, VS.on_panic (none g rfl)]
      exact h
    · obtain ⟨a, _, _⟩ := pops x s g rfl
      simp only [Stk.exec, VS.observe, Stk.top, GoM.bind_def, VS.recv_apply, VS.on_ok a]
      exact h
  | clear =>
    obtain ⟨s, g⟩ := sl
    have e := Sl.slice_zero v m 0 (Nat.zero_le _)
    simp only [Int.natCast_zero] at e
    simp only [Stk.exec, VS.observe, Stk.clear, GoM.bind_def, VS.recv_apply, VS.on_ok e, VS.assign_apply]
    exact ⟨rfl, by have := h.all; simpa [KSlots.step] using this⟩
  | len => exact h
  | isEmpty => exact h

/-- Histories on several stacks. -/
theorem VWInv.runSlots (grow : Nat → Nat → Nat) {F : Nat → Prop} {m0 : Mem T} (ops : List (Nat × KOp T)) :
    ∀ {w : VWorld T} {s : Nat → List T} {sl : Nat → KSlots T}, VWInv False F m0 w (fun i => (s i).reverse) → (∀ i, SlotsAt w.mem (w.vars i) (sl i)) →
    ∀ i, SlotsAt (w.runStacks grow ops).2.mem ((w.runStacks grow ops).2.vars i) (KSlots.run grow sl ops i) := by
  induction ops with
  | nil => intro w s sl _ h; exact h
  | cons o ops ih =>
    intro w s sl h hs
    obtain ⟨i, op⟩ := o
    obtain ⟨m', v', e, st⟩ := Stk.exec_step (P := fun _ => True) grow op trivial (fun _ _ => trivial) (h.wf i) (h.read i)
    have hw := h.move i st.wf st.read st.top st.place st.frame (fun f => f.elim)
    have hr : (fun j => if j = i then (KSeq.step (s i) op).2.reverse else (s j).reverse)
        = (fun j => ((fun j => if j = i then (KSeq.step (s i) op).2 else s j) j).reverse) := by
      funext j
      by_cases hj : j = i <;> simp [hj]
    rw [hr] at hw
    have hx := (hs i).exec grow op
    simp only [e] at hx
    have hs' : ∀ j, SlotsAt m' (if j = i then v' else w.vars j) (if j = i then KSlots.step grow (sl i) op else sl j) := by
      intro j
      by_cases hj : j = i
      · simp only [hj, if_true]; exact hx
      · simp only [hj, if_false]
        refine (hs j).of_same fun k hk => ?_
        have hd := h.disj j i hj k hk
        have ht := (h.wf j).2
        exact st.frame k (by unfold Sl.Has at hk; omega) (by unfold Sl.Has at hd; omega)
    have := ih hw hs'
    simp only [VWorld.runStacks, KSlots.run, e]
    exact this

end Stl4go
