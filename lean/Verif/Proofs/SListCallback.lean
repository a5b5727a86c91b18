import Verif.Proofs.SListCursor
import Verif.Spec.SListCallback
/-! # SList callbacks: the loop is an iterator; invariant through the callback's operations -/
namespace Stl4go
variable {T α β σ : Type}

/-- The lists hold `x.lists`, and the loop is on node `n`. -/
def AtL (w : LWorld T) (x : LWalk T) (n : Option Nat) : Prop :=
  ∃ ids R, LCInv ⟨w.heap, w.vars, fun _ => ⟨n⟩⟩ ⟨x.lists, fun _ => (x.own, x.cur)⟩ ids R

/-- The lists hold `x.lists`. -/
def HoldsL (w : LWorld T) (x : LWalk T) : Prop := ∃ ids, LWInv w x.lists ids

theorem AtL.holds {w : LWorld T} {x : LWalk T} {n : Option Nat} (a : AtL w x n) : HoldsL w x := by
  obtain ⟨ids, R, I⟩ := a
  exact ⟨ids, fun i => I.inv i, I.disj⟩

theorem AtL.call [GoZero T] {w : LWorld T} {x : LWalk T} {n : Option Nat} (a : AtL w x n) (i : Nat) (op : LOp T) :
    let r := LL.exec { heap := w.heap, l := w.vars i } op
    r.1 = (LSeq.step (x.lists i) op).1 ∧ AtL { heap := r.2.heap, vars := fun j => if j = i then r.2.l else w.vars j } (x.op i op) n := by
  obtain ⟨ids, R, I⟩ := a
  obtain ⟨ids', R', e, I'⟩ := I.list i op
  refine ⟨e, ids', R', ?_⟩
  have hc : (fun _ : Nat => ((x.op i op).own, (x.op i op).cur)) =
      fun _ => if x.own = i then (i, x.cur.after (x.lists i) op) else (x.own, x.cur) := by
    funext _
    by_cases h : x.own = i
    · subst h; simp [LWalk.op]
    · have : i ≠ x.own := fun e => h e.symm
      simp [LWalk.op, h, this]
  rw [hc]
  exact I'

theorem AtL.cases {w : LWorld T} {x : LWalk T} {n : Option Nat} (a : AtL w x n) :
    (x.rest = [] ∧ n = none) ∨
    (∃ q v r nx d, x.rest = v :: r ∧ n = some q ∧ (∀ l, LS.load n ⟨w.heap, l⟩ = .ok ⟨nx, v⟩ ⟨w.heap, l⟩) ∧
      x.cur.next (x.lists x.own) = some d ∧ d.rest (x.lists x.own) = r ∧ AtL w { x with cur := d } nx) := by
  obtain ⟨ids, R, I⟩ := a
  rcases (I.cur 0).cases (I.inv _) with ⟨e, e1, _⟩ | ⟨q, v, r, nx, d, e, e1, e2, e3, e4, e5, _⟩
  · exact .inl ⟨e, e1⟩
  · refine .inr ⟨q, v, r, nx, d, e, e1, fun l => ?_, e4, e5, ids, fun c => (R c).tail, I.inv, I.disj, fun c => ?_, fun c j y hy => ?_⟩
    · have e1 : n = some q := e1
      subst e1; exact LS.load_view e2 e3
    · rcases (I.cur c).cases (I.inv _) with ⟨_, f1, _⟩ | ⟨q', _, _, nx', d', _, f1, f2, _, f4, _, b, _⟩
      · have : n = none := f1
        rw [this] at e1; cases e1
      · have f1 : n = some q' := f1
        have e1 : n = some q := e1
        rw [e1] at f1
        cases f1
        have f2 : lnx w.heap q = some nx' := f2
        have e2 : lnx w.heap q = some nx := e2
        rw [e2] at f2
        cases f2
        have f4 : x.cur.next (x.lists x.own) = some d' := f4
        have e4 : x.cur.next (x.lists x.own) = some d := e4
        rw [e4] at f4
        cases f4
        exact b
    · exact I.out c j y (List.mem_of_mem_tail hy)

theorem AtL.load {w : LWorld T} {x : LWalk T} {n : Option Nat} (a : AtL w x n) :
    (x.rest = [] ∧ n = none ∧ LWorld.heapOp (LS.load n) w = .panic w) ∨
    (∃ v r nx d, x.rest = v :: r ∧ n ≠ none ∧ LWorld.heapOp (LS.load n) w = .ok ⟨nx, v⟩ w ∧
      x.cur.next (x.lists x.own) = some d ∧ AtL w { x with cur := d } nx) := by
  rcases a.cases with ⟨e, rfl⟩ | ⟨q, v, r, nx, d, e, rfl, e1, e2, _, e3⟩
  · exact .inl ⟨e, rfl, rfl⟩
  · exact .inr ⟨v, r, nx, d, e, by simp, by simp [LWorld.heapOp, e1], e2, e3⟩

theorem AtL.store {w : LWorld T} {x : LWalk T} {n : Option Nat} (a : AtL w x n) (hn : n ≠ none) (v : T) :
    ∃ w', LWorld.heapOp (LS.setVal n v) w = .ok () w' ∧ AtL w' (x.write v) n := by
  obtain ⟨ids, R, I⟩ := a
  rcases (I.cur 0).cases (I.inv _) with ⟨_, e1, _⟩ | ⟨q, v', r, nx, d, _, e1, _, _, _, _, _, hq, hlive, hdead⟩
  · exact absurd e1 hn
  have e1 : n = some q := e1
  subst e1
  cases hp : x.cur.pre with
  | nil =>
    obtain ⟨k, hc, hq, hks⟩ := hlive hp
    have hc : x.cur.pos = some k := hc
    obtain ⟨h', e2, i', f⟩ := (I.inv x.own).set hq v {}
    refine ⟨{ w with heap := h' }, by simp only [LWorld.heapOp]; rw [e2], ids, R, ?_⟩
    have hqm : q ∈ ids x.own := List.mem_of_getElem? hq
    have hw : x.write v = { x with lists := fun j => if j = x.own then (x.lists j).set k v else x.lists j } := by
      simp only [LWalk.write, hp, hc]
    rw [hw]
    refine ⟨fun j => ?_, I.disj, fun c => ?_, I.out⟩
    · by_cases hj : j = x.own
      · subst hj; simp only [if_true]; exact i'
      · simp only [hj, if_false]
        exact (I.inv j).frame f (fun y hy hy' => by
          simp only [List.mem_singleton] at hy'
          subst hy'
          exact I.disj j _ hj y hy hqm)
    · exact (I.cur c).frame f (fun y hy hy' => by
        simp only [List.mem_singleton] at hy'
        subst hy'
        exact I.out c _ y hy hqm)
  | cons u p =>
    have hR : ∀ c, (R c).head? = some q := by
      intro c
      rcases (I.cur c).cases (I.inv _) with ⟨_, f1, _⟩ | ⟨q', _, _, _, _, _, f1, _, _, _, _, _, _, _, hdead⟩
      · cases f1
      · cases f1; exact hdead u p hp
    have hout : ∀ j, q ∉ ids j := fun j => I.out 0 j q (by
      have := hR 0
      exact List.mem_of_mem_head? (by rw [this]; rfl))
    obtain ⟨h', e2, en, ev, el⟩ := LS.setVal_view (l := {}) v hq
    have f : LFrame w.heap h' [q] := ⟨by show w.heap.length ≤ h'.length; have : h'.length = w.heap.length := el; omega, fun y _ hy => ⟨en y, by
      rw [ev]; simp at hy; simp [hy]⟩⟩
    refine ⟨{ w with heap := h' }, by simp only [LWorld.heapOp]; rw [e2], ids, R, ?_⟩
    have hw : x.write v = { x with cur := { x.cur with pre := v :: p } } := by simp only [LWalk.write, hp]
    rw [hw]
    refine ⟨fun j => (I.inv j).frame f (fun y hy hy' => ?_), I.disj, fun c => ?_, I.out⟩
    · simp only [List.mem_singleton] at hy'
      subst hy'
      exact hout j hy
    · have b := I.cur c
      have hRc := hR c
      cases hx : R c with
      | nil => rw [hx] at hRc; simp at hRc
      | cons z R' =>
        rw [hx] at hRc
        simp only [List.head?_cons, Option.some.injEq] at hRc
        subst hRc
        rw [hx] at b
        have hv := b.vals
        have hnd := b.nodup
        rw [List.nodup_cons] at hnd
        simp only [hp, List.map_cons, List.cons.injEq] at hv
        refine ⟨b.pos, b.node, b.runs.congr (fun y _ => en y), ?_, fun y hy => ?_, b.nodup⟩
        · simp only [List.map_cons, List.cons.injEq]
          refine ⟨by rw [ev]; simp, ?_⟩
          rw [← hv.2]
          exact List.map_congr_left (fun y hy => by
            rw [ev]
            have : y ≠ z := fun e => hnd.1 (by rw [← e]; exact hy)
            simp [this])
        · have := b.bound y hy
          show y < h'.length
          have : h'.length = w.heap.length := el
          have : y < w.heap.length := b.bound y hy
          omega

/-- The same ending; `P` after returning, `Q` after a panic. -/
def FitsL (P : LWorld T → LWalk T → Prop) (Q : LWorld T → LWalk T → Prop) : Res (LWorld T) α → Res (LWalk T) α → Prop
  | .ok a st, .ok b w => a = b ∧ P st w
  | .panic st, .panic w => Q st w
  | .diverge, .diverge => True
  | _, _ => False

theorem AtL.prog [GoZero T] {n : Option Nat} (hn : n ≠ none) (p : LProg T α) : ∀ {w : LWorld T} {x : LWalk T}, AtL w x n →
    FitsL (fun w x => AtL w x n) HoldsL (p.exec n w) (p.spec x) := by
  induction p with
  | ret a => intro w x h; exact ⟨rfl, h⟩
  | panic => intro w x h; exact h.holds
  | hang => intro w x h; trivial
  | call i op k ih =>
    intro w x h
    obtain ⟨e, h'⟩ := h.call i op
    simp only [LProg.exec, LProg.spec]
    rw [← e]
    have hh : (LSeq.step (x.lists i) op).1 ≠ .hung := by
      cases op <;> simp only [LSeq.step] <;> (try split) <;> simp
    rw [← e] at hh
    revert hh h'
    generalize LL.exec { heap := w.heap, l := w.vars i } op = r
    obtain ⟨o, st⟩ := r
    intro h' hh
    cases o <;> first | exact h'.holds | exact absurd rfl hh | exact ih _ h'
  | load k ih =>
    intro w x h
    simp only [LProg.exec, LProg.spec, GoM.bind_def]
    rcases h.load with ⟨_, e, _⟩ | ⟨v, r, nx, d, e, _, e1, _⟩
    · exact absurd e hn
    · simp only [e1, e]; exact ih v h
  | store v k ih =>
    intro w x h
    simp only [LProg.exec, LProg.spec, GoM.bind_def]
    obtain ⟨w', e, h'⟩ := h.store hn v
    simp only [e]
    exact ih h'

theorem AtL.loop [GoZero T] (cb : σ → LProg T (σ × Bool)) (fuel : Nat) : ∀ {w : LWorld T} {x : LWalk T} {n : Option Nat} (t : σ), AtL w x n →
    FitsL HoldsL HoldsL (LL.forEachMutableIfLoopC cb fuel n t w) (LWalk.loop cb fuel t x) := by
  induction fuel with
  | zero => intros; trivial
  | succ fuel ih =>
    intro w x n t h
    simp only [LL.forEachMutableIfLoopC, LWalk.loop]
    rcases h.load with ⟨e, rfl, _⟩ | ⟨v, r, nx, d, e, hn, _⟩
    · simp only [e, if_true]; exact ⟨rfl, h.holds⟩
    · simp only [e, hn, if_false, GoM.bind_def]
      have hp := h.prog hn (cb t)
      revert hp
      cases (cb t).exec n w with
      | ok a w' =>
        cases (cb t).spec x with
        | ok b x' =>
          rintro ⟨rfl, h'⟩
          obtain ⟨t', b⟩ := a
          cases b with
          | false => exact ⟨rfl, h'.holds⟩
          | true =>
            rcases h'.load with ⟨_, e, _⟩ | ⟨v', r', nx', d', _, _, e1, e2, h''⟩
            · exact absurd e hn
            · simp only [Bool.true_eq_false, if_false, e1, e2, GoM.bind_def]
              exact ih t' h''
        | panic x' => exact fun h => h.elim
        | diverge => exact fun h => h.elim
      | panic w' =>
        cases (cb t).spec x with
        | ok b x' => exact fun h => h.elim
        | panic x' => exact fun h => h
        | diverge => exact fun h => h.elim
      | diverge =>
        cases (cb t).spec x with
        | ok b x' => exact fun h => h.elim
        | panic x' => exact fun h => h.elim
        | diverge => exact fun h => h

theorem LWInv.forEachMutableIfC [GoZero T] {w : LWorld T} {s : Nat → List T} {ids : Nat → List Nat} (hw : LWInv w s ids) (i : Nat)
    (cb : σ → LProg T (σ × Bool)) (fuel : Nat) (t : σ) :
    FitsL HoldsL HoldsL (LL.forEachMutableIfC fuel i cb t w) (LWalk.run fuel i cb t s) := by
  simp only [LL.forEachMutableIfC, GoM.bind_def, GoM.get_apply, LWalk.run]
  refine AtL.loop cb fuel t ⟨ids, fun _ => [], fun j => hw.inv j, hw.disj, fun _ => LCurIs.start (hw.inv i), by simp⟩

theorem AtL.noPanic [GoZero T] (cb : σ → LProg T (σ × Bool)) (hcb : ∀ t x x', (cb t).spec x ≠ .panic x') (fuel : Nat) :
    ∀ {w : LWorld T} {x : LWalk T} {n : Option Nat} (t : σ), AtL w x n → ∀ w', LL.forEachMutableIfLoopC cb fuel n t w ≠ .panic w' := by
  induction fuel with
  | zero => intro w x n t _ w' h; simp [LL.forEachMutableIfLoopC, GoM.diverge] at h
  | succ fuel ih =>
    intro w x n t h w' hc
    simp only [LL.forEachMutableIfLoopC] at hc
    rcases h.load with ⟨e, rfl, _⟩ | ⟨v, r, nx, d, e, hn, _⟩
    · simp at hc
    · simp only [hn, if_false, GoM.bind_def] at hc
      have hp := h.prog hn (cb t)
      have hnp := hcb t x
      revert hp hc
      cases (cb t).exec n w with
      | ok a w1 =>
        cases hs : (cb t).spec x with
        | ok b x' =>
          rintro hc ⟨rfl, h'⟩
          obtain ⟨t', b⟩ := a
          cases b with
          | false => simp at hc
          | true =>
            rcases h'.load with ⟨_, e, _⟩ | ⟨v', r', nx', d', _, _, e1, e2, h''⟩
            · exact absurd e hn
            · simp only [Bool.true_eq_false, if_false, e1, GoM.bind_def] at hc
              exact ih t' h'' w' hc
        | panic x' => exact fun _ h => h.elim
        | diverge => exact fun _ h => h.elim
      | panic w1 =>
        cases hs : (cb t).spec x with
        | ok b x' => exact fun _ h => h.elim
        | panic x' => exact fun _ _ => hnp x' hs
        | diverge => exact fun _ h => h.elim
      | diverge => intro hc; simp at hc

theorem LWInv.noPanic [GoZero T] {w : LWorld T} {s : Nat → List T} {ids : Nat → List Nat} (hw : LWInv w s ids) (i : Nat)
    (cb : σ → LProg T (σ × Bool)) (hcb : ∀ t x x', (cb t).spec x ≠ .panic x') (fuel : Nat) (t : σ) :
    ∀ w', LL.forEachMutableIfC fuel i cb t w ≠ .panic w' := by
  simp only [LL.forEachMutableIfC, GoM.bind_def, GoM.get_apply]
  refine AtL.noPanic cb hcb fuel t (x := ⟨s, i, LCur.start (s i)⟩) ⟨ids, fun _ => [], fun j => hw.inv j, hw.disj, fun _ => LCurIs.start (hw.inv i), by simp⟩

/-! ## The four methods are instances of one -/

theorem LProg.exec_bind [GoZero T] (n : Option Nat) (p : LProg T α) (f : α → LProg T β) : ∀ s : LWorld T,
    (p.bind f).exec n s = match p.exec n s with
      | .ok a s => (f a).exec n s
      | .panic s => .panic s
      | .diverge => .diverge := by
  induction p with
  | ret a => intro s; rfl
  | panic => intro s; rfl
  | hang => intro s; rfl
  | call i op k ih =>
    intro s
    simp only [LProg.bind, LProg.exec]
    generalize LL.exec { heap := s.heap, l := s.vars i } op = r
    obtain ⟨o, s'⟩ := r
    cases o <;> simp only [ih]
  | load k ih => intro s; simp only [LProg.bind, LProg.exec, GoM.bind_def, ih]; cases LWorld.heapOp (LS.load n) s <;> rfl
  | store v k ih => intro s; simp only [LProg.bind, LProg.exec, GoM.bind_def, ih]; cases LWorld.heapOp (LS.setVal n v) s <;> rfl

theorem LL.forEachMutableLoopC_eq [GoZero T] (cb : σ → LProg T σ) (fuel : Nat) : ∀ (n : Option Nat) (t : σ),
    LL.forEachMutableLoopC cb fuel n t = LL.forEachMutableIfLoopC (LProg.goOn cb) fuel n t := by
  induction fuel with
  | zero => intros; rfl
  | succ fuel ih =>
    intro n t
    funext s
    simp only [LL.forEachMutableLoopC, LL.forEachMutableIfLoopC, LProg.goOn]
    split
    · rfl
    · simp only [GoM.bind_def, LProg.exec_bind]
      cases hy : (cb t).exec n s with
      | ok t s' => simp only [LProg.exec, ih]; rfl
      | panic => rfl
      | diverge => rfl

theorem LL.forEachIfLoopC_eq [GoZero T] (cb : σ → T → LProg T (σ × Bool)) (fuel : Nat) : ∀ (n : Option Nat) (t : σ),
    LL.forEachIfLoopC cb fuel n t = LL.forEachMutableIfLoopC (LProg.byValue cb) fuel n t := by
  induction fuel with
  | zero => intros; rfl
  | succ fuel ih =>
    intro n t
    funext s
    simp only [LL.forEachIfLoopC, LL.forEachMutableIfLoopC, LProg.byValue, LProg.exec]
    split
    · rfl
    · simp only [GoM.bind_def, ih]
      cases LWorld.heapOp (LS.load n) s <;> rfl

theorem LL.forEachLoopC_eq [GoZero T] (cb : σ → T → LProg T σ) (fuel : Nat) : ∀ (n : Option Nat) (t : σ),
    LL.forEachLoopC cb fuel n t = LL.forEachMutableLoopC (LProg.byValue cb) fuel n t := by
  induction fuel with
  | zero => intros; rfl
  | succ fuel ih =>
    intro n t
    funext s
    simp only [LL.forEachLoopC, LL.forEachMutableLoopC, LProg.byValue, LProg.exec]
    split
    · rfl
    · simp only [GoM.bind_def, ih]
      cases LWorld.heapOp (LS.load n) s <;> rfl

end Stl4go
