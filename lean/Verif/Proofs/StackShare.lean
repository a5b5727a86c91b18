import Verif.Spec.StackShare
import Verif.Proofs.Stack
import Verif.Proofs.VectorShare
/-! # Lemmas about stacks that share arrays -/
namespace Stl4go
variable {T : Type}

/-- The arrays are in memory, apart from each other, and the stacks are on them. -/
structure KSim (w : VWorld T) (a : KShared T) (base : Nat → Nat) : Prop where
  vars : ∀ i, w.vars i = ⟨base (a.var i).1, (a.var i).2, (a.arr (a.var i).1).length⟩
  fits : ∀ i, (a.var i).1 < a.next ∧ (a.var i).2 ≤ (a.arr (a.var i).1).length
  cells : ∀ x, x < a.next → ∀ k, k < (a.arr x).length → (a.arr x)[k]? = some (w.mem.cell (base x + k))
  top : ∀ x, x < a.next → base x + (a.arr x).length ≤ w.mem.top
  apart : ∀ x y, x < a.next → y < a.next → x ≠ y → ∀ k l, k < (a.arr x).length → l < (a.arr y).length → base x + k ≠ base y + l
  first : a.arr 0 = [] ∧ base 0 = 0 ∧ 0 < a.next

theorem KSim.init (m : Mem T) : KSim (VWorld.init m) KShared.init (fun _ => 0) where
  vars _ := rfl
  fits _ := ⟨Nat.zero_lt_one, Nat.le_refl _⟩
  cells _ _ k hk := absurd hk (Nat.not_lt_zero k)
  top _ _ := Nat.zero_le _
  apart _ _ _ _ _ k _ hk := absurd hk (Nat.not_lt_zero k)
  first := ⟨rfl, rfl, Nat.zero_lt_one⟩

variable {w : VWorld T} {a : KShared T} {base : Nat → Nat}

theorem KSim.wf (h : KSim w a base) (i : Nat) : (w.vars i).WF w.mem := by
  have h1 := h.fits i
  have h2 := h.top _ h1.1
  rw [h.vars i]
  exact ⟨h1.2, h2⟩

theorem KSim.read (h : KSim w a base) (i : Nat) : (w.vars i).read w.mem = (a.seq i).reverse := by
  obtain ⟨h1, h2⟩ := h.fits i
  simp only [KShared.seq, List.reverse_reverse]
  refine List.ext_getElem? (fun k => ?_)
  rw [Sl.read_getElem?, h.vars i]
  simp only
  by_cases hk : k < (a.var i).2
  · rw [if_pos hk, List.getElem?_take_of_lt hk, h.cells _ h1 k (by omega)]
  · rw [if_neg hk, List.getElem?_eq_none (by simp; omega)]

/-- The stacks change, the arrays do not. -/
theorem KSim.moved (h : KSim w a base) (i : Nat) (p : Nat × Nat) (hp : p.1 < a.next) (hn : p.2 ≤ (a.arr p.1).length) :
    KSim { w with vars := upd w.vars i ⟨base p.1, p.2, (a.arr p.1).length⟩ } { a with var := upd a.var i p } base := by
  refine ⟨?_, ?_, h.cells, h.top, h.apart, h.first⟩
  · intro j
    by_cases hj : j = i
    · simp [upd_at, hj]
    · simp [upd_at, hj, h.vars j]
  · intro j
    by_cases hj : j = i
    · simp only [upd_at, hj, if_true]; exact ⟨hp, hn⟩
    · simp only [upd_at, hj, if_false]; exact h.fits j

/-- A new array. -/
theorem KSim.added (h : KSim w a base) (i n : Nat) (l : List T) (hn : n ≤ l.length) :
    KSim { mem := w.mem.alloc l, vars := upd w.vars i ⟨w.mem.top, n, l.length⟩ } (a.add i n l) (upd base a.next w.mem.top) := by
  have old : ∀ x, x < a.next → (a.add i n l).arr x = a.arr x ∧ upd base a.next w.mem.top x = base x := by
    intro x hx
    have : x ≠ a.next := by omega
    simp [KShared.add, upd_at, this]
  have new : (a.add i n l).arr a.next = l ∧ upd base a.next w.mem.top a.next = w.mem.top := by simp [KShared.add, upd_at]
  have lt : ∀ x, x < (a.add i n l).next → x = a.next ∨ x < a.next := by intro x hx; simp only [KShared.add] at hx; omega
  refine ⟨?_, ?_, ?_, ?_, ?_, ?_⟩
  · intro j
    by_cases hj : j = i
    · simp [KShared.add, upd_at, hj]
    · obtain ⟨o1, o2⟩ := old _ (h.fits j).1
      have : (a.add i n l).var j = a.var j := by simp [KShared.add, upd_at, hj]
      simp only [this, o1, o2]
      simp only [upd_at, hj, if_false]
      exact h.vars j
  · intro j
    by_cases hj : j = i
    · simp only [KShared.add, upd_at, hj, if_true]; exact ⟨by omega, hn⟩
    · obtain ⟨o1, o2⟩ := old _ (h.fits j).1
      have : (a.add i n l).var j = a.var j := by simp [KShared.add, upd_at, hj]
      rw [this, o1]
      have := h.fits j
      exact ⟨by simp only [KShared.add]; omega, this.2⟩
  · intro x hx k hk
    rcases lt x hx with rfl | hx
    · rw [new.1] at hk ⊢
      rw [new.2, Mem.alloc_cell, Mem.write_in _ _ _ _ hk, List.getElem?_eq_getElem hk]
    · obtain ⟨o1, o2⟩ := old x hx
      rw [o1] at hk ⊢
      have := h.top x hx
      rw [o2, Mem.alloc_cell, Mem.write_out _ _ _ _ (by omega)]
      exact h.cells x hx k hk
  · intro x hx
    simp only [Mem.alloc_top]
    rcases lt x hx with rfl | hx
    · rw [new.1, new.2]; exact Nat.le_refl _
    · obtain ⟨o1, o2⟩ := old x hx
      have := h.top x hx
      rw [o1, o2]; omega
  · intro x y hx hy hxy k k' hk hk'
    rcases lt x hx with rfl | hx
    · rcases lt y hy with rfl | hy
      · exact absurd rfl hxy
      · obtain ⟨o1, o2⟩ := old y hy
        have := h.top y hy
        rw [o1] at hk'
        rw [new.2, o2]; omega
    · obtain ⟨o1, o2⟩ := old x hx
      rw [o1] at hk
      have := h.top x hx
      rcases lt y hy with rfl | hy
      · rw [new.2, o2]; omega
      · obtain ⟨o3, o4⟩ := old y hy
        rw [o3] at hk'
        rw [o2, o4]
        exact h.apart x y hx hy hxy k k' hk hk'
  · obtain ⟨f1, f2, f3⟩ := h.first
    obtain ⟨o1, o2⟩ := old 0 f3
    rw [o1, o2]
    exact ⟨f1, f2, by simp only [KShared.add]; omega⟩

/-- A place of an array is written. -/
theorem KSim.stored (h : KSim w a base) (i n : Nat) (x : T) (id : Nat) (hid : id < a.next) (hn : n < (a.arr id).length) :
    KSim { mem := w.mem.write (base id + n) [x], vars := upd w.vars i ⟨base id, n + 1, (a.arr id).length⟩ }
      { a with arr := upd a.arr id ((a.arr id).set n x), var := upd a.var i (id, n + 1) } base := by
  have len : ∀ y, (upd a.arr id ((a.arr id).set n x) y).length = (a.arr y).length := by
    intro y
    by_cases hy : y = id
    · simp [upd_at, hy]
    · simp [upd_at, hy]
  refine ⟨?_, ?_, ?_, ?_, ?_, ?_⟩
  · intro j
    by_cases hj : j = i
    · simp only [upd_at, hj, if_true, List.length_set]
    · simp only [upd_at, hj, if_false]
      rw [h.vars j]
      have := len (a.var j).1
      simp only [upd_at] at this
      rw [this]
  · intro j
    by_cases hj : j = i
    · simp only [upd_at, hj, if_true, List.length_set]; exact ⟨hid, by omega⟩
    · simp only [upd_at, hj, if_false]
      have := len (a.var j).1
      simp only [upd_at] at this
      rw [this]
      exact h.fits j
  · intro y hy k hk
    simp only [len] at hk
    by_cases hyi : y = id
    · subst hyi
      simp only [upd_at, if_true]
      by_cases hkn : k = n
      · subst hkn
        have := Mem.write_in w.mem (base y + k) [x] 0 (by simp)
        simp only [Nat.add_zero, List.getElem_cons_zero] at this
        rw [this, List.getElem?_set_self hk]
      · rw [List.getElem?_set_ne (fun e => hkn e.symm), Mem.write_out _ _ _ _ (by simp; omega)]
        exact h.cells y hy k hk
    · simp only [upd_at, hyi, if_false]
      have := h.apart y id hy hid hyi k n hk hn
      rw [Mem.write_out _ _ _ _ (by simp; omega)]
      exact h.cells y hy k hk
  · intro y hy
    simp only [len, Mem.write_top]
    exact h.top y hy
  · intro y z hy hz hyz k l hk hl
    simp only [len] at hk hl
    exact h.apart y z hy hz hyz k l hk hl
  · obtain ⟨f1, f2, f3⟩ := h.first
    refine ⟨?_, f2, f3⟩
    have := len 0
    rw [f1] at this
    exact List.eq_nil_of_length_eq_zero this

variable [GoZero T]

omit [GoZero T] in
theorem VWorld.same_vars (w : VWorld T) (i : Nat) : ({ mem := w.mem, vars := upd w.vars i (w.vars i) } : VWorld T) = w := by
  have : upd w.vars i (w.vars i) = w.vars := by
    funext j
    by_cases hj : j = i
    · simp [upd_at, hj]
    · simp [upd_at, hj]
  rw [this]

/-- One operation. -/
theorem KSim.op (grow : Nat → Nat → Nat) (h : KSim w a base) (i : Nat) (o : KOp T) :
    (w.stackStmt grow (.op i o)).1 = (KSeq.step (a.seq i) o).1 ∧ ∃ base', KSim (w.stackStmt grow (.op i o)).2 (a.op grow i o) base' := by
  obtain ⟨m', v', e, _⟩ := Stk.exec_step (P := fun _ => True) grow o trivial (fun _ _ => trivial) (h.wf i) (h.read i)
  simp only [VWorld.stackStmt]
  refine ⟨by rw [e], ?_⟩
  have hv := h.vars i
  obtain ⟨f1, f2⟩ := h.fits i
  have hlen : (a.seq i).length = (a.var i).2 := by simp [KShared.seq]; omega
  -- cutting
  have cut : ∀ n : Nat, n ≤ (a.var i).2 → (w.vars i).slice 0 n w.mem = .ok ⟨base (a.var i).1, n, (a.arr (a.var i).1).length⟩ w.mem := by
    intro n hn
    rw [Sl.slice_zero _ _ _ (by rw [hv]; simp only; omega), hv]
  have hcut : ∀ n : Nat, n ≤ (a.var i).2 → KSim { mem := w.mem, vars := upd w.vars i ⟨base (a.var i).1, n, (a.arr (a.var i).1).length⟩ } (a.cut i n) base :=
    fun n hn => h.moved i ((a.var i).1, n) f1 (by simp only; omega)
  have same : KSim { mem := w.mem, vars := upd w.vars i (w.vars i) } a base := by rw [w.same_vars i]; exact h
  have popped : ∀ (b : Sl), (w.vars i).len ≠ 0 → (w.vars i).slice 0 (((w.vars i).len : Int) - 1) w.mem =
      .ok ⟨base (a.var i).1, (a.var i).2 - 1, (a.arr (a.var i).1).length⟩ w.mem := by
    intro _ h0
    have := cut ((a.var i).2 - 1) (by omega)
    rw [hv] at h0 ⊢
    rw [hv] at this
    simp only at h0
    rw [show (((a.var i).2 : Int) - 1) = (((a.var i).2 - 1 : Nat) : Int) by omega]
    exact this
  have nothing : (a.var i).2 = 0 → a.cut i ((a.var i).2 - 1) = a := by
    intro h0
    unfold KShared.cut
    rw [h0]
    have : upd a.var i ((a.var i).1, 0 - 1) = a.var := by
      funext j
      by_cases hj : j = i
      · rw [hj]; simp only [upd_at, if_true]; exact Prod.ext rfl h0.symm
      · simp [upd_at, hj]
    rw [this]
  cases o with
  | new =>
    refine ⟨base, ?_⟩
    obtain ⟨g1, g2, g3⟩ := h.first
    have := h.moved i (0, 0) g3 (Nat.zero_le _)
    simp only [g1, g2] at this
    exact this
  | newCap c =>
    simp only [Stk.exec, KShared.op]
    by_cases hc : 0 ≤ c
    · obtain ⟨n, rfl⟩ : ∃ n : Nat, c = n := ⟨c.toNat, by omega⟩
      have e1 := Sl.make_ok (T := T) 0 n (by omega) w.mem
      simp only [Int.natCast_zero] at e1
      rw [if_pos hc]
      have := h.added i 0 (List.replicate n GoZero.zero) (Nat.zero_le _)
      simp only [List.length_replicate] at this
      refine ⟨upd base a.next w.mem.top, ?_⟩
      simp only [VS.observe, Stk.newCap, GoM.bind_def, VS.on_ok e1, VS.assign_apply, Int.toNat_natCast]
      exact this
    · rw [if_neg hc]
      have : Stk.newCap (T := T) c ⟨w.mem, w.vars i⟩ = .panic ⟨w.mem, w.vars i⟩ := Vec.makeCap_panic (T := T) c (by omega)
      exact ⟨base, by simp only [VS.observe, this]; exact same⟩
  | push x =>
    simp only [KShared.op]
    by_cases hr : a.room i
    · rw [if_pos hr]
      have hr' : (a.var i).2 < (a.arr (a.var i).1).length := hr
      have e1 : (w.vars i).append grow [x] w.mem = .ok { w.vars i with len := (w.vars i).len + 1 } (w.mem.write ((w.vars i).off + (w.vars i).len) [x]) := by
        unfold Sl.append
        simp only
        rw [if_pos (by rw [hv]; simp; omega)]
        rfl
      refine ⟨base, ?_⟩
      simp only [Stk.exec, VS.observe, Stk.push, GoM.bind_def, VS.recv_apply, VS.on_ok e1, VS.assign_apply]
      rw [hv]
      exact h.stored i (a.var i).2 x (a.var i).1 f1 hr'
    · rw [if_neg hr]
      have hr' : ¬ (a.var i).2 < (a.arr (a.var i).1).length := hr
      have hcap : (a.arr (a.var i).1).length = (a.var i).2 := by omega
      have hread := h.read i
      have e1 : (w.vars i).append grow [x] w.mem = .ok { off := w.mem.top, len := (a.var i).2 + 1, cap := max ((a.var i).2 + 1) (grow (a.var i).2 ((a.var i).2 + 1)) }
          (w.mem.alloc ((a.seq i).reverse ++ [x] ++ List.replicate (grow (a.var i).2 ((a.var i).2 + 1) - ((a.var i).2 + 1)) GoZero.zero)) := by
        unfold Sl.append
        rw [hread, hv]
        simp only [List.length_cons, List.length_nil, hcap]
        rw [if_neg (by omega)]
        have : max ((a.var i).2 + (0 + 1)) (grow (a.var i).2 ((a.var i).2 + (0 + 1))) - ((a.var i).2 + (0 + 1))
            = grow (a.var i).2 ((a.var i).2 + 1) - ((a.var i).2 + 1) := by simp only [Nat.zero_add]; omega
        rw [this]
      have := h.added i ((a.var i).2 + 1) ((a.seq i).reverse ++ [x] ++ List.replicate (grow (a.var i).2 ((a.var i).2 + 1) - ((a.var i).2 + 1)) GoZero.zero)
        (by simp [hlen])
      have hl : ((a.seq i).reverse ++ [x] ++ List.replicate (grow (a.var i).2 ((a.var i).2 + 1) - ((a.var i).2 + 1)) GoZero.zero).length
          = max ((a.var i).2 + 1) (grow (a.var i).2 ((a.var i).2 + 1)) := by
        simp only [List.length_append, List.length_reverse, hlen, List.length_replicate, List.length_cons, List.length_nil]
        omega
      rw [hl] at this
      refine ⟨upd base a.next w.mem.top, ?_⟩
      simp only [Stk.exec, VS.observe, Stk.push, GoM.bind_def, VS.recv_apply, VS.on_ok e1, VS.assign_apply]
      exact this
  | pop =>
    simp only [KShared.op]
    by_cases h0 : (a.var i).2 = 0
    · rw [nothing h0]
      have hg : (w.vars i).get (((w.vars i).len : Int) - 1) w.mem = .panic w.mem := Sl.get_panic _ _ _ (by rw [hv]; simp only; omega)
      exact ⟨base, by simp only [Stk.exec, VS.observe, Stk.pop, GoM.bind_def, VS.recv_apply, VS.on_panic hg]; exact same⟩
    · have hg : ∃ y, (w.vars i).get (((w.vars i).len : Int) - 1) w.mem = .ok y w.mem := by
        unfold Sl.get
        rw [if_pos (by rw [hv]; simp only; omega)]
        exact ⟨_, rfl⟩
      obtain ⟨y, hg⟩ := hg
      have hsl := popped (w.vars i) (by rw [hv]; exact h0)
      refine ⟨base, ?_⟩
      simp only [Stk.exec, VS.observe, Stk.pop, GoM.bind_def, VS.recv_apply, VS.on_ok hg, VS.on_ok hsl, VS.assign_apply, GoM.pure_apply]
      exact hcut _ (by omega)
  | tryPop =>
    simp only [KShared.op]
    by_cases h0 : (a.var i).2 = 0
    · rw [nothing h0]
      refine ⟨base, ?_⟩
      have : (w.vars i).len = 0 := by rw [hv]; exact h0
      simp only [Stk.exec, VS.observe, Stk.tryPop, GoM.bind_def, VS.recv_apply, this, if_true, GoM.pure_apply]
      exact same
    · have hg : ∃ y, (w.vars i).get (((w.vars i).len : Int) - 1) w.mem = .ok y w.mem := by
        unfold Sl.get
        rw [if_pos (by rw [hv]; simp only; omega)]
        exact ⟨_, rfl⟩
      obtain ⟨y, hg⟩ := hg
      have hl0 : ¬ (w.vars i).len = 0 := by rw [hv]; exact h0
      have hsl := popped (w.vars i) hl0
      refine ⟨base, ?_⟩
      simp only [Stk.exec, VS.observe, Stk.tryPop, GoM.bind_def, VS.recv_apply, if_neg hl0, VS.on_ok hg, VS.on_ok hsl, VS.assign_apply, GoM.pure_apply]
      exact hcut _ (by omega)
  | top =>
    simp only [KShared.op]
    refine ⟨base, ?_⟩
    have : (Stk.exec grow ⟨w.mem, w.vars i⟩ .top).2 = ⟨w.mem, w.vars i⟩ := by
      by_cases hq : 0 ≤ ((w.vars i).len : Int) - 1 ∧ ((w.vars i).len : Int) - 1 < (w.vars i).len
      · have hg : ∃ y, (w.vars i).get (((w.vars i).len : Int) - 1) w.mem = .ok y w.mem := by
          unfold Sl.get
          rw [if_pos hq]
          exact ⟨_, rfl⟩
        obtain ⟨y, hg⟩ := hg
        simp only [Stk.exec, VS.observe, Stk.top, GoM.bind_def, VS.recv_apply, VS.on_ok hg]
      · simp only [Stk.exec, VS.observe, Stk.top, GoM.bind_def, VS.recv_apply, VS.on_panic (Sl.get_panic _ _ _ hq)]
    rw [this]
    exact same
  | clear =>
    simp only [KShared.op]
    have e1 := cut 0 (Nat.zero_le _)
    simp only [Int.natCast_zero] at e1
    refine ⟨base, ?_⟩
    simp only [Stk.exec, VS.observe, Stk.clear, GoM.bind_def, VS.recv_apply, VS.on_ok e1, VS.assign_apply]
    exact hcut 0 (Nat.zero_le _)
  | len => exact ⟨base, by simp only [Stk.exec, VS.observe, Stk.len, GoM.bind_def, VS.recv_apply, GoM.pure_apply, KShared.op]; exact same⟩
  | isEmpty => exact ⟨base, by simp only [Stk.exec, VS.observe, Stk.isEmpty, GoM.bind_def, VS.recv_apply, GoM.pure_apply, KShared.op]; exact same⟩

theorem KSim.stmt (grow : Nat → Nat → Nat) (h : KSim w a base) (c : KStmt T) :
    (w.stackStmt grow c).1 = (a.stmt grow c).1 ∧ ∃ base', KSim (w.stackStmt grow c).2 (a.stmt grow c).2 base' := by
  cases c with
  | op i o => exact h.op grow i o
  | cap i =>
    refine ⟨?_, base, h⟩
    simp only [VWorld.stackStmt, VS.observe, Stk.cap, GoM.bind_def, VS.recv_apply, GoM.pure_apply, KShared.stmt]
    rw [h.vars i]
  | copy i j =>
    refine ⟨rfl, base, ?_⟩
    obtain ⟨f1, f2⟩ := h.fits j
    have := h.moved i (a.var j) f1 f2
    simp only [VWorld.stackStmt, KShared.stmt]
    rw [h.vars j]
    exact this

theorem KSim.run (grow : Nat → Nat → Nat) (h : List (KStmt T)) : ∀ {w : VWorld T} {a : KShared T} {base : Nat → Nat}, KSim w a base →
    (w.runStackC grow h).1 = (a.run grow h).1 ∧ ∃ base', KSim (w.runStackC grow h).2 (a.run grow h).2 base' := by
  induction h with
  | nil => intro w a base h; exact ⟨rfl, base, h⟩
  | cons c h ih =>
    intro w a base hs
    obtain ⟨e1, b1, h1⟩ := hs.stmt grow c
    obtain ⟨e2, h2⟩ := ih h1
    exact ⟨by simp only [VWorld.runStackC, KShared.run]; rw [e1, e2], h2⟩

/-! ## Stacks of their own -/

omit [GoZero T] in
theorem KShared.seq_cut (a : KShared T) (i n j : Nat) (hf : (a.var i).2 ≤ (a.arr (a.var i).1).length) (hn : n ≤ (a.var i).2) :
    (a.cut i n).seq j = if j = i then (a.seq i).drop ((a.var i).2 - n) else a.seq j := by
  by_cases hj : j = i
  · subst hj
    simp only [KShared.seq, KShared.cut, upd_at, if_true]
    rw [List.drop_reverse, List.length_take, Nat.min_eq_left hf, List.take_take]
    congr 2
    omega
  · simp [KShared.seq, KShared.cut, upd_at, hj]

omit [GoZero T] in
theorem KShared.seq_add (a : KShared T) (i n j : Nat) (l : List T) (hf : ∀ j, (a.var j).1 < a.next) :
    (a.add i n l).seq j = if j = i then (l.take n).reverse else a.seq j := by
  by_cases hj : j = i
  · simp [KShared.seq, KShared.add, upd_at, hj]
  · have := hf j
    have : (a.var j).1 ≠ a.next := by omega
    simp [KShared.seq, KShared.add, upd_at, hj, this]

/-- A fair operation does to every stack what it does if they are apart. -/
theorem KSim.seq_op (grow : Nat → Nat → Nat) (h : KSim w a base) (i : Nat) (o : KOp T) (hfair : a.FairStmt (.op i o)) :
    (a.op grow i o).seq = upd a.seq i (KSeq.step (a.seq i) o).2 := by
  obtain ⟨f1, f2⟩ := h.fits i
  have hlen : (a.seq i).length = (a.var i).2 := by simp [KShared.seq]; omega
  have same : a.seq = upd a.seq i (a.seq i) := by
    funext j
    by_cases hj : j = i
    · simp [upd_at, hj]
    · simp [upd_at, hj]
  have pop : (a.cut i ((a.var i).2 - 1)).seq = upd a.seq i (a.seq i).tail := by
    funext j
    rw [a.seq_cut i _ j f2 (by omega)]
    by_cases hj : j = i
    · simp only [upd_at, hj, if_true]
      by_cases h0 : (a.var i).2 = 0
      · rw [List.eq_nil_of_length_eq_zero (hlen.trans h0)]; simp
      · rw [show (a.var i).2 - ((a.var i).2 - 1) = 1 by omega, List.drop_one]
    · simp [upd_at, hj]
  cases o with
  | new =>
    funext j
    by_cases hj : j = i
    · simp [KShared.op, KShared.seq, KSeq.step, upd_at, hj]
    · simp [KShared.op, KShared.seq, KSeq.step, upd_at, hj]
  | newCap c =>
    simp only [KShared.op, KSeq.step]
    by_cases hc : 0 ≤ c
    · rw [if_pos hc, if_pos hc]
      funext j
      rw [a.seq_add i _ j _ (fun j => (h.fits j).1)]
      by_cases hj : j = i
      · simp [upd_at, hj]
      · simp [upd_at, hj]
    · rw [if_neg hc, if_neg hc]; exact same
  | push x =>
    simp only [KShared.op, KSeq.step]
    by_cases hr : a.room i
    · rw [if_pos hr]
      have hr' : (a.var i).2 < (a.arr (a.var i).1).length := hr
      funext j
      by_cases hj : j = i
      · subst hj
        simp only [KShared.seq, upd_at, if_true]
        rw [List.take_add_one, List.take_set_of_le (Nat.le_refl _), List.getElem?_set_self hr']
        simp
      · simp only [KShared.seq, upd_at, hj, if_false]
        by_cases he : (a.var j).1 = (a.var i).1
        · rw [if_pos he, List.take_set_of_le (hfair hr j he), he]
        · rw [if_neg he]
    · rw [if_neg hr]
      funext j
      rw [a.seq_add i _ j _ (fun j => (h.fits j).1)]
      by_cases hj : j = i
      · simp only [upd_at, hj, if_true]
        rw [List.take_left' (by simp [hlen])]
        simp
      · simp [upd_at, hj]
  | pop =>
    simp only [KShared.op]
    rw [pop]
    cases hs : a.seq i with
    | nil => simp [KSeq.step]
    | cons x s => simp [KSeq.step]
  | tryPop =>
    simp only [KShared.op]
    rw [pop]
    cases hs : a.seq i with
    | nil => simp [KSeq.step]
    | cons x s => simp [KSeq.step]
  | top =>
    simp only [KShared.op]
    have : (KSeq.step (a.seq i) .top).2 = a.seq i := by
      cases hs : a.seq i with
      | nil => simp [KSeq.step]
      | cons x s => simp [KSeq.step]
    rw [this]; exact same
  | clear =>
    simp only [KShared.op, KSeq.step]
    funext j
    rw [a.seq_cut i _ j f2 (Nat.zero_le _)]
    by_cases hj : j = i
    · simp only [upd_at, hj, if_true]
      exact List.drop_eq_nil_of_le (by omega)
    · simp [upd_at, hj]
  | len => exact same
  | isEmpty => exact same

/-- A fair statement. -/
theorem KSim.seq_stmt (grow : Nat → Nat → Nat) (h : KSim w a base) (c : KStmt T) (hfair : a.FairStmt c) :
    (a.stmt grow c).1 = (KSeq.stmt a.seq c).1 ∧ (a.stmt grow c).2.seq = (KSeq.stmt a.seq c).2 := by
  cases c with
  | op i o => exact ⟨rfl, h.seq_op grow i o hfair⟩
  | cap i => exact absurd hfair (fun f => f)
  | copy i j =>
    refine ⟨rfl, ?_⟩
    funext k
    by_cases hk : k = i
    · simp [KShared.stmt, KSeq.stmt, KShared.seq, upd_at, hk]
    · simp [KShared.stmt, KSeq.stmt, KShared.seq, upd_at, hk]

theorem KSim.fair_run (grow : Nat → Nat → Nat) (h : List (KStmt T)) : ∀ {w : VWorld T} {a : KShared T} {base : Nat → Nat}, KSim w a base →
    a.Fair grow h → (a.run grow h).1 = (KSeq.runC a.seq h).1 ∧ (a.run grow h).2.seq = (KSeq.runC a.seq h).2 := by
  induction h with
  | nil => intro w a base _ _; exact ⟨rfl, rfl⟩
  | cons c h ih =>
    intro w a base hs hf
    obtain ⟨_, b1, h1⟩ := hs.stmt grow c
    obtain ⟨e1, e2⟩ := hs.seq_stmt grow c hf.1
    obtain ⟨e3, e4⟩ := ih h1 hf.2
    simp only [KShared.run, KSeq.runC]
    rw [← e2, e1, e3]
    exact ⟨rfl, e4⟩

theorem KShared.run_append (grow : Nat → Nat → Nat) (h t : List (KStmt T)) : ∀ (a : KShared T),
    (a.run grow (h ++ t)).1 = (a.run grow h).1 ++ ((a.run grow h).2.run grow t).1 := by
  induction h with
  | nil => intro a; rfl
  | cons c h ih => intro a; simp only [List.cons_append, KShared.run, ih]

theorem KShared.run_length (grow : Nat → Nat → Nat) (h : List (KStmt T)) : ∀ (a : KShared T), (a.run grow h).1.length = h.length := by
  induction h with
  | nil => intro a; rfl
  | cons c h ih => intro a; simp only [KShared.run, List.length_cons, ih]

omit [GoZero T] in
/-- The stack at the place `n` of an array after a store there. -/
theorem KShared.seq_stored (a : KShared T) (i n : Nat) (x : T) (hn : n < (a.arr (a.var i).1).length) (j : Nat) (hj : (a.var j) = ((a.var i).1, n + 1)) :
    ({ a with arr := upd a.arr (a.var i).1 ((a.arr (a.var i).1).set n x) } : KShared T).seq j = x :: ((a.arr (a.var i).1).take n).reverse := by
  simp only [KShared.seq, hj, upd_at, if_true]
  rw [List.take_add_one, List.take_set_of_le (Nat.le_refl _), List.getElem?_set_self hn]
  simp

end Stl4go
