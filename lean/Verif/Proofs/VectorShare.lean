import Verif.Spec.VectorShare
import Verif.Proofs.VectorCursor
/-! # Vectors that share arrays: the memory holds the arrays of the specification -/
namespace Stl4go
variable {T : Type}

theorem upd_at {α : Type} (f : Nat → α) (i : Nat) (x : α) (j : Nat) : upd f i x j = if j = i then x else f j := rfl

theorem overlay_length (l : List T) (p : Nat) (xs : List T) (h : p + xs.length ≤ l.length) : (overlay l p xs).length = l.length := by
  simp [overlay]; omega

theorem overlay_get? (l : List T) (p : Nat) (xs : List T) (h : p + xs.length ≤ l.length) (k : Nat) :
    (overlay l p xs)[k]? = if p ≤ k ∧ k < p + xs.length then xs[k - p]? else l[k]? := by
  simp only [overlay]
  by_cases h1 : k < p
  · rw [if_neg (by omega), List.append_assoc, List.getElem?_append_left (by simp; omega), List.getElem?_take_of_lt h1]
  · by_cases h2 : k < p + xs.length
    · rw [if_pos (by omega), List.getElem?_append_left (by simp; omega), List.getElem?_append_right (by simp; omega)]
      congr 1
      simp; omega
    · rw [if_neg (by omega), List.getElem?_append_right (by simp; omega), List.getElem?_drop]
      congr 1
      simp; omega

/-- The memory holds the arrays; array `d` starts at address `base d`. -/
structure ShSim (a : Shared T) (w : VWorld T) (base : Nat → Nat) : Prop where
  inside : ∀ d, d < a.arrs.length → base d + (a.arr d).length ≤ w.mem.top
  cells : ∀ d k x, (a.arr d)[k]? = some x → w.mem.cell (base d + k) = x
  apart : ∀ d e, d < a.arrs.length → e < a.arrs.length → d ≠ e → ∀ k, k < (a.arr d).length → ∀ l, l < (a.arr e).length → base d + k ≠ base e + l
  vars : ∀ i, w.vars i = { off := base (a.wins i).id + (a.wins i).lo, len := (a.wins i).len, cap := (a.wins i).cap }
  fits : ∀ i, (a.wins i).id < a.arrs.length ∧ (a.wins i).len ≤ (a.wins i).cap ∧ (a.wins i).lo + (a.wins i).cap ≤ (a.arr (a.wins i).id).length

theorem ShSim.init (m : Mem T) : ShSim Shared.init (VWorld.init m) (fun _ => 0) := by
  refine ⟨fun d hd => ?_, fun d k x h => ?_, fun d e hd he hn => ?_, fun i => rfl, fun i => ?_⟩
  · simp [Shared.init] at hd
    simp [Shared.init, Shared.arr, hd]
  · simp only [Shared.init, Shared.arr] at h
    cases d <;> simp at h
  · simp [Shared.init] at hd he
    omega
  · simp [Shared.init, Shared.arr]

theorem ShSim.read {a : Shared T} {w : VWorld T} {base : Nat → Nat} (S : ShSim a w base) (i : Nat) :
    (w.vars i).WF w.mem ∧ (w.vars i).read w.mem = a.seq i ∧ (a.seq i).length = (a.wins i).len := by
  obtain ⟨h1, h2, h3⟩ := S.fits i
  have h4 := S.inside _ h1
  have hl : (a.seq i).length = (a.wins i).len := by simp [Shared.seq]; omega
  rw [S.vars i]
  refine ⟨⟨h2, by simp only; omega⟩, ?_, hl⟩
  refine List.ext_getElem? (fun k => ?_)
  rw [Sl.read_getElem?]
  simp only
  split
  · rename_i hk
    have hk' : (a.wins i).lo + k < (a.arr (a.wins i).id).length := by omega
    have := S.cells (a.wins i).id ((a.wins i).lo + k) _ (List.getElem?_eq_getElem hk')
    rw [Nat.add_assoc, this]
    simp only [Shared.seq]
    rw [List.getElem?_take_of_lt hk, List.getElem?_drop, List.getElem?_eq_getElem hk']
  · rw [List.getElem?_eq_none (by omega)]

theorem Shared.arr_set (l : List (List T)) (f : Nat → Win) (d : Nat) (hd : d < l.length) (x : List T) (e : Nat) :
    Shared.arr { arrs := l.set d x, wins := f } e = if e = d then x else Shared.arr { arrs := l, wins := f } e := by
  simp only [Shared.arr]
  by_cases h : e = d
  · subst h; simp [hd]
  · rw [if_neg h, List.getElem?_set_ne (Ne.symm h)]

theorem Shared.arr_push (l : List (List T)) (f g : Nat → Win) (x : List T) (e : Nat) :
    Shared.arr { arrs := l ++ [x], wins := f } e = if e = l.length then x else Shared.arr { arrs := l, wins := g } e := by
  simp only [Shared.arr]
  by_cases h : e = l.length
  · subst h; simp
  · rw [if_neg h]
    by_cases h2 : e < l.length
    · rw [List.getElem?_append_left h2]
    · rw [List.getElem?_eq_none (by simp; omega), List.getElem?_eq_none (by omega)]

variable [GoZero T]

theorem padded_length (n : Nat) (s : List T) : (padded n s).length = max n s.length := by simp [padded]; omega

theorem ShSim.stay {a : Shared T} {w : VWorld T} {base : Nat → Nat} (S : ShSim a w base) (i : Nat) {m' : Mem T} {v' : Sl} {l : List T}
    (st : VStay w.mem (w.vars i) m' v' l) :
    ShSim { arrs := a.arrs.set (a.wins i).id (overlay (a.arr (a.wins i).id) (a.wins i).lo (padded (a.wins i).len l)), wins := upd a.wins i { a.wins i with len := l.length } }
      { mem := m', vars := upd w.vars i v' } base := by
  obtain ⟨h1, h2, h3⟩ := S.fits i
  have hf := st.fits
  have hc := st.cells
  rw [S.vars i] at hf hc
  simp only at hf hc
  have hp := padded_length (a.wins i).len l
  have hin := S.inside _ h1
  have hol := overlay_length (a.arr (a.wins i).id) (a.wins i).lo (padded (a.wins i).len l) (by omega)
  have harr : ∀ d, (Shared.arr { arrs := a.arrs.set (a.wins i).id (overlay (a.arr (a.wins i).id) (a.wins i).lo (padded (a.wins i).len l)), wins := upd a.wins i { a.wins i with len := l.length } } d).length = (a.arr d).length := by
    intro d
    rw [Shared.arr_set _ _ _ h1]
    split
    · rename_i hd; rw [hol, hd]
    · rfl
  refine ⟨fun d hd => ?_, fun d k x hx => ?_, fun d e hd he hn k hk l hl => ?_, fun j => ?_, fun j => ?_⟩
  · rw [harr]
    have := S.inside d (by simpa using hd)
    have := st.top
    simp only
    omega
  · rw [Shared.arr_set _ _ _ h1] at hx
    by_cases hd : d = (a.wins i).id
    · rw [if_pos hd] at hx
      have hk : k < (a.arr (a.wins i).id).length := by
        rw [← hol]
        exact (List.getElem?_eq_some_iff.1 hx).1
      rw [overlay_get? _ _ _ (by omega)] at hx
      subst hd
      rw [hc _ (by omega)]
      by_cases hin2 : (a.wins i).lo ≤ k ∧ k < (a.wins i).lo + (padded (a.wins i).len l).length
      · rw [if_pos hin2] at hx
        have e : base (a.wins i).id + k = base (a.wins i).id + (a.wins i).lo + (k - (a.wins i).lo) := by omega
        rw [e, Mem.write_in _ _ _ _ (show k - (a.wins i).lo < (l ++ List.replicate ((a.wins i).len - l.length) (GoZero.zero : T)).length from by
          have := hin2.2; simp only [padded] at this; omega)]
        rw [List.getElem?_eq_some_iff] at hx
        obtain ⟨_, hx⟩ := hx
        exact hx
      · rw [if_neg hin2] at hx
        rw [Mem.write_out _ _ _ _ (by simp only [padded] at hin2; omega)]
        exact S.cells _ _ _ hx
    · rw [if_neg hd] at hx
      have hx' : (a.arr d)[k]? = some x := hx
      have hk : k < (a.arr d).length := (List.getElem?_eq_some_iff.1 hx').1
      have hd2 : d < a.arrs.length := by
        by_cases h : d < a.arrs.length
        · exact h
        · simp [Shared.arr, List.getElem?_eq_none (Nat.le_of_not_lt h)] at hk
      have := S.inside d hd2
      rw [hc _ (by omega), Mem.write_out _ _ _ _ ?_]
      · exact S.cells _ _ _ hx'
      · by_cases hlo : base d + k < base (a.wins i).id + (a.wins i).lo
        · exact .inl hlo
        · right
          by_cases hhi : base (a.wins i).id + (a.wins i).lo + (l ++ List.replicate ((a.wins i).len - l.length) (GoZero.zero : T)).length ≤ base d + k
          · exact hhi
          · exfalso
            have hpp : (l ++ List.replicate ((a.wins i).len - l.length) (GoZero.zero : T)).length = max (a.wins i).len l.length := hp
            rw [hpp] at hhi
            exact S.apart d (a.wins i).id hd2 h1 hd k hk (base d + k - base (a.wins i).id) (by omega) (by omega)
  · rw [harr] at hk hl
    exact S.apart d e (by simpa using hd) (by simpa using he) hn k hk l hl
  · simp only [upd_at]
    split
    · rw [st.eq, S.vars i]
    · exact S.vars j
  · rw [harr]
    simp only [upd_at, List.length_set]
    split
    · exact ⟨h1, hf, h3⟩
    · exact S.fits j

theorem ShSim.move {a : Shared T} {w : VWorld T} {base : Nat → Nat} (S : ShSim a w base) (i : Nat) {m' : Mem T} {v' : Sl} {l : List T} {c : Nat}
    (st : VMove w.mem m' v' l c) :
    ShSim { arrs := a.arrs ++ [padded c l], wins := upd a.wins i ⟨a.arrs.length, 0, l.length, c⟩ } { mem := m', vars := upd w.vars i v' } (upd base a.arrs.length v'.off) := by
  have hpl : (padded c l).length = c := by rw [padded_length]; have := st.fits; omega
  have ht := st.top
  refine ⟨fun d hd => ?_, fun d k x hx => ?_, fun d e hd he hn k hk l' hl => ?_, fun j => ?_, fun j => ?_⟩
  · rw [Shared.arr_push _ _ a.wins, upd_at]
    split
    · rw [hpl]; exact st.inside
    · rename_i hne
      simp at hd
      have := S.inside d (by omega)
      have e : Shared.arr { arrs := a.arrs, wins := a.wins } d = a.arr d := rfl
      rw [e]
      simp only
      omega
  · rw [Shared.arr_push _ _ a.wins] at hx
    rw [upd_at]
    split at hx
    · rename_i hd
      rw [if_pos hd]
      have hk : k < c := by rw [← hpl]; exact (List.getElem?_eq_some_iff.1 hx).1
      have h1 := st.all
      have h2 := Sl.read_getElem? m' { v' with len := c } k
      rw [h1, if_pos hk] at h2
      simp only [padded] at hx
      rw [hx] at h2
      injection h2 with h2
      exact h2.symm
    · rename_i hd
      rw [if_neg hd]
      have hx' : (a.arr d)[k]? = some x := hx
      have hk : k < (a.arr d).length := (List.getElem?_eq_some_iff.1 hx').1
      have hd2 : d < a.arrs.length := by
        by_cases h : d < a.arrs.length
        · exact h
        · simp [Shared.arr, List.getElem?_eq_none (Nat.le_of_not_lt h)] at hk
      have := S.inside d hd2
      rw [st.keep _ (by omega)]
      exact S.cells _ _ _ hx'
  · rw [Shared.arr_push _ _ a.wins] at hk hl
    simp only [upd_at]
    simp at hd he
    have far : ∀ d, d < a.arrs.length → ∀ k, k < (a.arr d).length → ∀ l', l' < c → base d + k ≠ v'.off + l' := by
      intro d hd k hk l' hl'
      have := S.inside d hd
      rcases st.place with h | h
      · omega
      · omega
    have e1 : ∀ d, Shared.arr { arrs := a.arrs, wins := a.wins } d = a.arr d := fun _ => rfl
    split at hk
    · rename_i hd1
      rw [if_neg (by omega)] at hl
      rw [if_pos hd1, if_neg (by omega)]
      rw [hpl] at hk
      exact fun h => far e (by omega) l' hl k hk h.symm
    · rename_i hd1
      rw [if_neg hd1]
      split at hl
      · rename_i he1
        rw [if_pos he1]
        rw [hpl] at hl
        exact far d (by omega) k hk l' hl
      · rename_i he1
        rw [if_neg he1]
        exact S.apart d e (by omega) (by omega) hn k hk l' hl
  · simp only [upd_at]
    by_cases hj : j = i
    · simp only [if_pos hj, if_true, Nat.add_zero]
      have h1 := st.len
      have h2 := st.cap
      cases v'
      simp_all
    · simp only [if_neg hj]
      have := (S.fits j).1
      rw [if_neg (by omega)]
      exact S.vars j
  · rw [Shared.arr_push _ _ a.wins]
    simp only [upd_at, List.length_append, List.length_singleton]
    by_cases hj : j = i
    · simp only [if_pos hj, if_true, hpl]
      have := st.fits
      omega
    · simp only [if_neg hj]
      obtain ⟨h1, h2, h3⟩ := S.fits j
      rw [if_neg (by omega)]
      exact ⟨by omega, h2, h3⟩

theorem ShSim.stmt (grow : Nat → Nat → Nat) {a : Shared T} {w : VWorld T} {base : Nat → Nat} (S : ShSim a w base) (c : VStmt T) (hv : c.Valid) :
    ∃ base', (w.stmt grow c).1 = (a.stmt grow c).1 ∧ ShSim (a.stmt grow c).2 (w.stmt grow c).2 base' := by
  cases c with
  | op i o =>
    obtain ⟨hw, hr, hl⟩ := S.read i
    obtain ⟨m', v', e, x1, x2⟩ := Vec.exec_exact grow o hv hw hr
    have hcap : (w.vars i).cap = (a.wins i).cap := by rw [S.vars i]
    have e' : Vec.exec grow { mem := w.mem, v := w.vars i } o = ((VSeq.step (a.seq i) o).1, ⟨m', v'⟩) := e
    simp only [VWorld.stmt, Shared.stmt, e', Shared.op]
    rw [hcap] at x1 x2
    cases hm : o.moves (a.wins i).cap (a.seq i) with
    | true => exact ⟨_, trivial, S.move i (x1 hm)⟩
    | false => exact ⟨_, trivial, S.stay i (x2 hm)⟩
  | cap i =>
    refine ⟨base, ?_, S⟩
    simp only [VWorld.stmt, Shared.stmt, VS.observe, Vec.cap, VS.recv, GoM.bind_def, GoM.pure_apply]
    simp [S.vars i]
  | copy i j =>
    refine ⟨base, rfl, S.inside, S.cells, S.apart, fun k => ?_, fun k => ?_⟩
    · simp only [VWorld.stmt, Shared.stmt, upd_at]
      split
      · exact S.vars j
      · exact S.vars k
    · simp only [Shared.stmt, upd_at]
      split
      · exact S.fits j
      · exact S.fits k
  | part i j lo hi =>
    obtain ⟨h1, h2, h3⟩ := S.fits j
    have hcap : (w.vars j).cap = (a.wins j).cap := by rw [S.vars j]
    by_cases hc : 0 ≤ lo ∧ lo ≤ hi ∧ hi ≤ (a.wins j).cap
    · refine ⟨base, ?_, ?_⟩
      · simp only [VWorld.stmt, Shared.stmt, Sl.slice, hcap, if_pos hc]
      · simp only [VWorld.stmt, Shared.stmt, Sl.slice, hcap, if_pos hc]
        refine ⟨S.inside, S.cells, S.apart, fun k => ?_, fun k => ?_⟩
        · simp only [upd_at]
          split
          · rw [S.vars j]; simp; omega
          · exact S.vars k
        · simp only [upd_at]
          split
          · exact ⟨h1, by simp only; omega, by simp only; exact Nat.le_trans (by omega) h3⟩
          · exact S.fits k
    · refine ⟨base, ?_, ?_⟩
      · simp only [VWorld.stmt, Shared.stmt, Sl.slice, hcap, if_neg hc]
      · simp only [VWorld.stmt, Shared.stmt, Sl.slice, hcap, if_neg hc]
        exact S

theorem ShSim.run (grow : Nat → Nat → Nat) (h : List (VStmt T)) : ∀ {a : Shared T} {w : VWorld T} {base : Nat → Nat}, ShSim a w base → (∀ c ∈ h, c.Valid) →
    ∃ base', (w.runC grow h).1 = (a.run grow h).1 ∧ ShSim (a.run grow h).2 (w.runC grow h).2 base' := by
  induction h with
  | nil => intro a w base S _; exact ⟨base, rfl, S⟩
  | cons c h ih =>
    intro a w base S hv
    obtain ⟨b1, e1, S1⟩ := S.stmt grow c (hv c List.mem_cons_self)
    obtain ⟨b2, e2, S2⟩ := ih S1 (fun c hc => hv c (List.mem_cons_of_mem _ hc))
    refine ⟨b2, ?_, S2⟩
    simp only [VWorld.runC, Shared.run]
    rw [e1, e2]

/-! ## What the variables show after a statement -/

/-- The part of `ShSim` that is about the specification only. -/
def Shared.Fits (a : Shared T) : Prop := ∀ i, (a.wins i).id < a.arrs.length ∧ (a.wins i).len ≤ (a.wins i).cap ∧ (a.wins i).lo + (a.wins i).cap ≤ (a.arr (a.wins i).id).length

omit [GoZero T] in
theorem Shared.seq_get? (a : Shared T) (i k : Nat) : (a.seq i)[k]? = if k < (a.wins i).len then (a.arr (a.wins i).id)[(a.wins i).lo + k]? else none := by
  simp only [Shared.seq, List.getElem?_take, List.getElem?_drop]

omit [GoZero T] in
theorem Shared.Fits.len {a : Shared T} (F : a.Fits) (i : Nat) : (a.seq i).length = (a.wins i).len := by
  have := F i
  simp [Shared.seq]; omega

/-- Where the elements stay in place, they fit. -/
theorem VOp.stays_fit (o : VOp T) (hv : o.Valid) (c : Nat) (s : List T) (hs : s.length ≤ c) (h : o.moves c s = false) : (VSeq.step s o).2.length ≤ c := by
  let m : Mem T := { cell := fun k => (s ++ List.replicate (c - s.length) GoZero.zero)[k]?.getD GoZero.zero, top := c }
  let v : Sl := { off := 0, len := s.length, cap := c }
  have hw : v.WF m := ⟨hs, by simp [v, m]⟩
  have hr : v.read m = s := by
    refine List.ext_getElem? (fun k => ?_)
    rw [Sl.read_getElem?]
    simp only [v, m]
    split
    · rename_i hk
      simp only [Nat.zero_add]
      rw [List.getElem?_append_left hk, List.getElem?_eq_getElem hk]
      rfl
    · rw [List.getElem?_eq_none (by omega)]
  obtain ⟨m', v', _, _, x2⟩ := Vec.exec_exact (fun a b => a + b) o hv hw hr
  exact (x2 h).fits

/-- Where the elements get a new array, they fit into it. -/
theorem VOp.moves_fit (grow : Nat → Nat → Nat) (o : VOp T) (hv : o.Valid) (c : Nat) (s : List T) (hs : s.length ≤ c) (h : o.moves c s = true) :
    (VSeq.step s o).2.length ≤ o.newCap grow c s := by
  let m : Mem T := { cell := fun k => (s ++ List.replicate (c - s.length) GoZero.zero)[k]?.getD GoZero.zero, top := c }
  let v : Sl := { off := 0, len := s.length, cap := c }
  have hw : v.WF m := ⟨hs, by simp [v, m]⟩
  have hr : v.read m = s := by
    refine List.ext_getElem? (fun k => ?_)
    rw [Sl.read_getElem?]
    simp only [v, m]
    split
    · rename_i hk
      simp only [Nat.zero_add]
      rw [List.getElem?_append_left hk, List.getElem?_eq_getElem hk]
      rfl
    · rw [List.getElem?_eq_none (by omega)]
  obtain ⟨m', v', _, x1, _⟩ := Vec.exec_exact grow o hv hw hr
  exact (x1 h).fits

theorem padded_take (n : Nat) (s : List T) : (padded n s).take s.length = s := by simp [padded]

theorem Shared.op_wins (grow : Nat → Nat → Nat) (a : Shared T) (i : Nat) (o : VOp T) (k : Nat) (hk : k ≠ i) : (a.op grow i o).wins k = a.wins k := by
  simp only [Shared.op]
  split <;> simp only [upd_at, if_neg hk]

/-- The variable operated on shows the result. -/
theorem Shared.op_seq_self (grow : Nat → Nat → Nat) {a : Shared T} (F : a.Fits) (i : Nat) (o : VOp T) (hv : o.Valid) :
    (a.op grow i o).seq i = (VSeq.step (a.seq i) o).2 := by
  obtain ⟨h1, h2, h3⟩ := F i
  have hl := F.len i
  simp only [Shared.op]
  split
  · rename_i hm
    simp only [Shared.seq, upd_at, if_true]
    rw [Shared.arr_push _ _ a.wins, if_pos rfl, List.drop_zero]
    exact padded_take _ _
  · rename_i hm
    have hf := VOp.stays_fit o hv _ _ (by omega) (Bool.not_eq_true _ ▸ hm)
    generalize (VSeq.step (a.seq i) o).2 = s' at hf ⊢
    simp only [Shared.seq, upd_at, if_true]
    rw [Shared.arr_set _ _ _ h1, if_pos rfl, overlay, List.append_assoc, List.drop_append_of_le_length (by simp; omega), List.drop_of_length_le (by simp; omega),
      List.nil_append, List.take_append_of_le_length (by rw [padded_length]; omega)]
    exact padded_take _ _

/-- Another variable shows what it showed if the operation needs a new array. -/
theorem Shared.op_seq_moves (grow : Nat → Nat → Nat) {a : Shared T} (F : a.Fits) (i : Nat) (o : VOp T) (hm : o.moves (a.wins i).cap (a.seq i) = true)
    (k : Nat) (hk : k ≠ i) : (a.op grow i o).seq k = a.seq k := by
  have := (F k).1
  simp only [Shared.op, if_pos hm]
  rw [Shared.seq]
  simp only [upd_at, if_neg hk]
  rw [Shared.arr_push _ _ a.wins, if_neg (by omega)]
  rfl

/-- Another variable with another array shows what it showed. -/
theorem Shared.op_seq_id (grow : Nat → Nat → Nat) {a : Shared T} (F : a.Fits) (i : Nat) (o : VOp T)
    (k : Nat) (hk : k ≠ i) (hd : (a.wins k).id ≠ (a.wins i).id) : (a.op grow i o).seq k = a.seq k := by
  cases hm : o.moves (a.wins i).cap (a.seq i) with
  | true => exact Shared.op_seq_moves grow F i o hm k hk
  | false =>
    simp only [Shared.op, hm, Bool.false_eq_true, if_false]
    rw [Shared.seq]
    simp only [upd_at, if_neg hk]
    rw [Shared.arr_set _ _ _ (F i).1, if_neg hd]
    rfl

/-- What every place of another variable shows after an operation in place. -/
theorem Shared.op_seq_get? (grow : Nat → Nat → Nat) {a : Shared T} (F : a.Fits) (i : Nat) (o : VOp T) (hv : o.Valid) (hm : o.moves (a.wins i).cap (a.seq i) = false)
    (k : Nat) (hk : k ≠ i) (hd : (a.wins k).id = (a.wins i).id) (q : Nat) (hq : q < (a.wins k).len) :
    ((a.op grow i o).seq k)[q]? = if (a.wins i).lo ≤ (a.wins k).lo + q ∧ (a.wins k).lo + q < (a.wins i).lo + max (a.seq i).length (VSeq.step (a.seq i) o).2.length
      then (padded (a.seq i).length (VSeq.step (a.seq i) o).2)[(a.wins k).lo + q - (a.wins i).lo]? else (a.seq k)[q]? := by
  obtain ⟨h1, h2, h3⟩ := F i
  have hl := F.len i
  have hf := VOp.stays_fit o hv _ _ (by omega) hm
  simp only [Shared.op, hm, Bool.false_eq_true, if_false]
  rw [Shared.seq_get?, Shared.seq_get?]
  simp only [upd_at, if_neg hk, if_pos hq]
  rw [Shared.arr_set _ _ _ h1, if_pos hd, overlay_get? _ _ _ (by rw [padded_length]; omega), padded_length, hl, hd]

theorem Shared.op_seq_misses (grow : Nat → Nat → Nat) {a : Shared T} (F : a.Fits) (i : Nat) (o : VOp T) (hv : o.Valid) (hm : o.moves (a.wins i).cap (a.seq i) = false)
    (k : Nat) (hk : k ≠ i) (hs : (a.wins i).Misses (a.wins k) (a.seq i) (VSeq.step (a.seq i) o).2) : (a.op grow i o).seq k = a.seq k := by
  by_cases hd : (a.wins k).id = (a.wins i).id
  · have hl := F.len i
    refine List.ext_getElem? (fun q => ?_)
    by_cases hq : q < (a.wins k).len
    · rw [Shared.op_seq_get? grow F i o hv hm k hk hd q hq]
      split
      · rename_i hin
        rcases hs with h | h | ⟨p, hp1, hp2, hp3, hp4⟩ | h
        · exact absurd hd h
        · omega
        · have e : (padded (a.seq i).length (VSeq.step (a.seq i) o).2)[(a.wins k).lo + q - (a.wins i).lo]? = (a.seq i)[(a.wins k).lo + q - (a.wins i).lo]? := by
            rw [padded, List.getElem?_append_left (by omega), ← List.getElem?_take_of_lt (show (a.wins k).lo + q - (a.wins i).lo < p from by omega), hp3,
              List.getElem?_take_of_lt (by omega)]
          rw [e, Shared.seq_get?, Shared.seq_get?, if_pos (by omega), if_pos hq, hd]
          congr 1
          omega
        · omega
      · rfl
    · have hw : (a.op grow i o).wins k = a.wins k := by
        simp only [Shared.op]
        split <;> simp only [upd_at, if_neg hk]
      rw [Shared.seq_get?, Shared.seq_get?, hw, if_neg hq, if_neg hq]
  · exact Shared.op_seq_id grow F i o k hk hd

/-- Fair histories behave like sequences. -/
theorem Shared.fair_run (grow : Nat → Nat → Nat) (h : List (VStmt T)) : ∀ {a : Shared T} {w : VWorld T} {base : Nat → Nat} (s : Nat → List T), ShSim a w base → (∀ c ∈ h, c.Valid) →
    (∀ i, a.seq i = s i) → Shared.Fair grow a h → (a.run grow h).1 = (VSeq.runC s h).1 ∧ ∀ i, (a.run grow h).2.seq i = (VSeq.runC s h).2 i := by
  induction h with
  | nil => intro a w base s S _ e _; exact ⟨rfl, e⟩
  | cons c h ih =>
    intro a w base s S hv e hf
    rw [Shared.Fair] at hf
    obtain ⟨b1, _, S1⟩ := S.stmt grow c (hv c List.mem_cons_self)
    have F : a.Fits := S.fits
    have key : (a.stmt grow c).1 = (VSeq.stmt s c).1 ∧ ∀ i, (a.stmt grow c).2.seq i = (VSeq.stmt s c).2 i := by
      obtain ⟨hf, _⟩ := hf
      have hvc := hv c List.mem_cons_self
      cases c with
      | cap i => exact absurd hf id
      | copy i j =>
        refine ⟨rfl, fun k => ?_⟩
        simp only [Shared.stmt, VSeq.stmt, upd_at]
        split
        · rename_i hk
          rw [← e j]
          simp only [Shared.seq, upd_at, if_pos hk]
          rfl
        · rename_i hk
          rw [← e k]
          simp only [Shared.seq, upd_at, if_neg hk]
          rfl
      | part i j lo hi =>
        have hl := F.len j
        obtain ⟨_, hj2, _⟩ := F j
        simp only [Shared.FairStmt] at hf
        simp only [Shared.stmt, VSeq.stmt, ← e j]
        by_cases hc : 0 ≤ lo ∧ lo ≤ hi ∧ hi ≤ (a.seq j).length
        · rw [if_pos hc, if_pos (by omega)]
          refine ⟨rfl, fun k => ?_⟩
          simp only [upd_at]
          split
          · rename_i hk
            simp only [Shared.seq, upd_at, if_pos hk]
            rw [List.drop_take, List.take_take, List.drop_drop, Nat.min_eq_left (by omega)]
            rfl
          · rename_i hk
            rw [← e k]
            simp only [Shared.seq, upd_at, if_neg hk]
            rfl
        · rw [if_neg hc, if_neg (by omega)]
          exact ⟨rfl, e⟩
      | op i o =>
        simp only [Shared.stmt, VSeq.stmt, ← e i]
        refine ⟨trivial, fun k => ?_⟩
        simp only [upd_at]
        split
        · rename_i hk
          subst hk
          exact Shared.op_seq_self grow F k o hvc
        · rename_i hk
          rw [← e k]
          cases hm : o.moves (a.wins i).cap (a.seq i) with
          | true => exact Shared.op_seq_moves grow F i o hm k hk
          | false => exact Shared.op_seq_misses grow F i o hvc hm k hk (hf hm k hk)
    obtain ⟨e1, e2⟩ := ih (VSeq.stmt s c).2 S1 (fun c hc => hv c (List.mem_cons_of_mem _ hc)) key.2 hf.2
    refine ⟨?_, e2⟩
    simp only [Shared.run, VSeq.runC]
    rw [e1, key.1]

theorem VWorld.after_sim (grow : Nat → Nat → Nat) (m : Mem T) (h : List (VStmt T)) (hv : ∀ c ∈ h, c.Valid) :
    ∃ a base, ShSim a ((VWorld.init m).runC grow h).2 base := by
  obtain ⟨b, _, S⟩ := ShSim.run grow h (ShSim.init m) hv
  exact ⟨_, b, S⟩

theorem ShSim.shows {grow : Nat → Nat → Nat} {a : Shared T} {w : VWorld T} {base : Nat → Nat} (S : ShSim a w base) {i : Nat} {s : List T} {c : Nat}
    (h : w.Shows grow i s c) : a.seq i = s ∧ (a.wins i).cap = c := by
  obtain ⟨h1, h2⟩ := h
  obtain ⟨_, e1, _⟩ := S.stmt grow (.op i .values) trivial
  obtain ⟨_, e2, _⟩ := S.stmt grow (.cap i) trivial
  rw [e1] at h1
  rw [e2] at h2
  simp only [Shared.stmt, VSeq.step, DObs.list.injEq] at h1
  simp only [Shared.stmt, DObs.num.injEq] at h2
  exact ⟨h1, by omega⟩

/-- The last statement of a history looks at variable `k`. -/
theorem Shared.run_values (grow : Nat → Nat → Nat) (k : Nat) (h : List (VStmt T)) : ∀ a : Shared T,
    (a.run grow (h ++ [.op k .values])).1.getLast? = some (.list ((a.run grow h).2.seq k)) := by
  induction h with
  | nil => intro a; rfl
  | cons c h ih =>
    intro a
    simp only [List.cons_append, Shared.run, List.getLast?_cons]
    rw [ih]
    rfl

/-- The same on the model. -/
theorem ShSim.last {grow : Nat → Nat → Nat} {a : Shared T} {w : VWorld T} {base : Nat → Nat} (S : ShSim a w base) (h : List (VStmt T)) (hv : ∀ c ∈ h, c.Valid) (k : Nat) :
    (w.runC grow (h ++ [.op k .values])).1.getLast? = some (.list ((a.run grow h).2.seq k)) := by
  obtain ⟨_, e, _⟩ := S.run grow (h ++ [.op k .values]) (by
    intro c hc
    rcases List.mem_append.1 hc with hc | hc
    · exact hv c hc
    · rw [List.mem_singleton.1 hc]; trivial)
  rw [e]
  exact Shared.run_values grow k h a

/-- Operations on a variable with another array never reach this one. -/
theorem Shared.run_other (grow : Nat → Nat → Nat) (i k : Nat) (hk : k ≠ i) (ops : List (VOp T)) (hv : ∀ o ∈ ops, o.Valid) : ∀ {a : Shared T} {w : VWorld T} {base : Nat → Nat},
    ShSim a w base → (a.wins k).id ≠ (a.wins i).id → (a.run grow (ops.map (.op i))).2.seq k = a.seq k := by
  induction ops with
  | nil => intro a w base S hd; rfl
  | cons o ops ih =>
    intro a w base S hd
    have F : a.Fits := S.fits
    obtain ⟨_, _, S1⟩ := S.stmt grow (.op i o) (hv o List.mem_cons_self)
    simp only [List.map_cons, Shared.run]
    rw [ih (fun o ho => hv o (List.mem_cons_of_mem _ ho)) S1 ?_]
    · exact Shared.op_seq_id grow F i o k hk hd
    · have := (F k).1
      simp only [Shared.stmt, Shared.op]
      split
      · simp only [upd_at, if_neg hk, if_true]; omega
      · simp only [upd_at, if_neg hk, if_true]; exact hd

omit [GoZero T] in
theorem VOp.grows_valid (o : VOp T) (h : o.grows = true) : o.Valid := by
  cases o <;> simp [VOp.grows] at h <;> trivial

/-- Operations that only add elements to a variable keep what a shorter window from the same place shows. -/
theorem Shared.run_grows (grow : Nat → Nat → Nat) (i k : Nat) (hk : k ≠ i) (ops : List (VOp T)) (hg : ∀ o ∈ ops, o.grows = true) : ∀ {a : Shared T} {w : VWorld T} {base : Nat → Nat},
    ShSim a w base → ((a.wins k).id ≠ (a.wins i).id ∨ (a.wins k).lo + (a.wins k).len ≤ (a.wins i).lo + (a.wins i).len) → (a.run grow (ops.map (.op i))).2.seq k = a.seq k := by
  induction ops with
  | nil => intro a w base S hd; rfl
  | cons o ops ih =>
    intro a w base S hd
    have F : a.Fits := S.fits
    have ho := hg o List.mem_cons_self
    have hv := VOp.grows_valid o ho
    obtain ⟨_, _, S1⟩ := S.stmt grow (.op i o) hv
    obtain ⟨t, ht⟩ := VOp.grows_step (a.seq i) o ho
    have hl := F.len i
    simp only [List.map_cons, Shared.run]
    rw [ih (fun o ho => hg o (List.mem_cons_of_mem _ ho)) S1 ?_]
    · cases hm : o.moves (a.wins i).cap (a.seq i) with
      | true => exact Shared.op_seq_moves grow F i o hm k hk
      | false =>
        refine Shared.op_seq_misses grow F i o hv hm k hk ?_
        rcases hd with h | h
        · exact .inl h
        · refine .inr (.inr (.inl ⟨(a.seq i).length, Nat.le_refl _, ?_, ?_, by omega⟩))
          · rw [ht]; simp
          · rw [ht]; simp
    · have := (F k).1
      simp only [Shared.stmt, Shared.op]
      split
      · left; simp only [upd_at, if_neg hk, if_true]; omega
      · simp only [upd_at, if_neg hk, if_true]
        rcases hd with h | h
        · exact .inl h
        · right; rw [ht, List.length_append]; omega

/-- A copy shows what it is a copy of. -/
theorem Shared.copy_seq (grow : Nat → Nat → Nat) (a : Shared T) (k i : Nat) (hk : k ≠ i) :
    (a.stmt grow (.copy k i)).2.seq k = a.seq i ∧ (a.stmt grow (.copy k i)).2.seq i = a.seq i ∧ (a.stmt grow (.copy k i)).2.wins k = a.wins i ∧ (a.stmt grow (.copy k i)).2.wins i = a.wins i := by
  simp only [Shared.stmt, Shared.seq, upd_at, if_true, if_neg (Ne.symm hk)]
  exact ⟨rfl, rfl, trivial, trivial⟩

/-- What a variable with the same window shows after an operation. -/
theorem Shared.op_seq_same (grow : Nat → Nat → Nat) {a : Shared T} (F : a.Fits) (i : Nat) (o : VOp T) (hv : o.Valid) (k : Nat) (hk : k ≠ i) (hw : a.wins k = a.wins i) :
    (a.op grow i o).seq k = if o.moves (a.wins i).cap (a.seq i) = true then a.seq i else (padded (a.seq i).length (VSeq.step (a.seq i) o).2).take (a.seq i).length := by
  have hsk : a.seq k = a.seq i := by simp only [Shared.seq, hw]
  have hl := F.len i
  split
  · rename_i hm
    rw [Shared.op_seq_moves grow F i o hm k hk, hsk]
  · rename_i hm
    refine List.ext_getElem? (fun q => ?_)
    by_cases hq : q < (a.wins k).len
    · rw [Shared.op_seq_get? grow F i o hv (Bool.not_eq_true _ ▸ hm) k hk (by rw [hw]) q hq, hw]
      rw [hw] at hq
      rw [if_pos (by omega), List.getElem?_take_of_lt (by omega)]
      congr 1
      omega
    · have hww : (a.op grow i o).wins k = a.wins k := by
        simp only [Shared.op, hm, Bool.false_eq_true, if_false, upd_at, if_neg hk]
      rw [Shared.seq_get?, hww, if_neg hq, List.getElem?_eq_none]
      rw [hw] at hq
      simp; omega

end Stl4go
