import Verif.Spec.DListCallback
import Verif.Proofs.DListCursor
/-! # DList: `ForEach` with callbacks that use the list -/
namespace Stl4go
variable {T α β σ : Type}

/-- The state `st` of a loop at `node` is what the walk `w` says; everything that changed since the heap `h0` is in `ft` or new. -/
def AtW (h0 : List (DNode T)) (ft : List Nat) (node : Option Nat) (st : DS T) (w : DWalk T) : Prop :=
  ∃ ids R, DInv st.heap st.l ids w.items ∧ CurIs st.heap st.l ids w.cur node R ∧ DFrame h0 st.heap ft ∧
    (∀ x ∈ foot st.l ids, x ∈ ft ∨ h0.length ≤ x) ∧ ∀ x ∈ R, x ∈ ft ∨ h0.length ≤ x

/-- The loop stands on an element, in the list or not any more. -/
def DWalk.Live (w : DWalk T) : Prop :=
  match w.cur with
  | .at k => k < w.items.length
  | .left _ _ => True
  | .popped _ => True
  | _ => False

theorem DWalk.Live.after [GoZero T] {w : DWalk T} (hl : w.Live) (op : DOp T) (hm : ∀ vs, op ≠ .make vs) :
    (⟨(Deque.step w.items op).2, w.cur.after w.items op⟩ : DWalk T).Live := by
  obtain ⟨s, c⟩ := w
  cases c with
  | «at» k =>
    have hk : k < s.length := hl
    have hne : s ≠ [] := by rintro rfl; simp at hk
    have hpop : s.getLast? = some (s.getLast hne) := List.getLast?_eq_some_getLast hne
    have front : (match s with | [] => (⟨[], .at k⟩ : DWalk T) | v :: s => ⟨s, if k = 0 then .popped v else .at (k - 1)⟩).Live := by
      cases s with
      | nil => simp at hk
      | cons v s =>
        by_cases h0 : k = 0
        · simp [DWalk.Live, h0]
        · simp only [DWalk.Live, h0, if_false]; simp at hk; omega
    have back : (⟨s.dropLast, if k + 1 = s.length then .popped (s.getLast hne) else if k = s.length then .at (k - 1) else .at k⟩ : DWalk T).Live := by
      by_cases h1 : k + 1 = s.length
      · simp [DWalk.Live, h1]
      · have h2 : k ≠ s.length := by omega
        simp only [DWalk.Live, h1, h2, if_false, List.length_dropLast]; omega
    cases op with
    | make vs => exact absurd rfl (hm vs)
    | pushFront v => simpa [DWalk.Live, DCur.after, Deque.step] using hk
    | pushBack v => simp only [DWalk.Live, DCur.after, Deque.step, hk, if_true, List.length_append]; omega
    | popFront => cases s with
      | nil => simp at hk
      | cons v s => exact front
    | tryPopFront => cases s with
      | nil => simp at hk
      | cons v s => exact front
    | popBack => simp only [DCur.after, Deque.step, hpop]; exact back
    | tryPopBack => simp only [DCur.after, Deque.step, hpop]; exact back
    | front => cases s with
      | nil => simp at hk
      | cons v s => exact hk
    | back => simp only [DCur.after, Deque.step, hpop]; exact hk
    | len => exact hk
    | isEmpty => exact hk
    | clear =>
      simp only [DCur.after, List.drop_eq_getElem_cons hk]
      trivial
    | values => exact hk
  | left v rest => cases op with
    | make vs => exact absurd rfl (hm vs)
    | _ => trivial
  | popped v => cases op with
    | make vs => exact absurd rfl (hm vs)
    | _ => trivial
  | nil => exact hl.elim
  | dead => exact hl.elim

theorem DWalk.Live.write {w : DWalk T} (hl : w.Live) (v : T) : (w.write v).Live := by
  obtain ⟨s, c⟩ := w
  cases c with
  | «at» k => simpa [DWalk.Live, DWalk.write] using hl
  | _ => exact hl

/-- A method call in the callback. -/
theorem AtW.call [GoZero T] {h0 : List (DNode T)} {ft : List Nat} {node : Option Nat} {st : DS T} {w : DWalk T} (a : AtW h0 ft node st w) (op : DOp T) :
    (DL.exec st op).1 = (Deque.step w.items op).1 ∧
      AtW h0 ft node (DL.exec st op).2 ⟨(Deque.step w.items op).2, w.cur.after w.items op⟩ := by
  obtain ⟨ids, R, i, c, f, hf, hR⟩ := a
  obtain ⟨h', l', ids', e, i', f', hf', m⟩ := i.exec_moves op
  have e : DL.exec st op = _ := e
  obtain ⟨R', c', hR'⟩ := c.exec i f' hf' m
  rw [e]
  refine ⟨rfl, ids', R', i', c', f.trans f' hf, fun x hx => ?_, fun x hx => ?_⟩
  · rcases hf' x hx with h1 | h1
    · exact hf x h1
    · exact .inr (Nat.le_trans f.mono h1)
  · rcases hR' x hx with h1 | h1
    · exact hR x h1
    · exact hf x (by simp [foot, h1])

/-- Reading the node of the loop: its value, and where its link leads. -/
theorem AtW.load {h0 : List (DNode T)} {ft : List Nat} {node : Option Nat} {st : DS T} {w : DWalk T} (a : AtW h0 ft node st w) (hl : w.Live) :
    node ≠ st.l.head ∧ ∃ n v, DS.load node st = .ok n st ∧ w.elem = some v ∧ n.value = v ∧ AtW h0 ft n.next st w.next := by
  obtain ⟨s, c⟩ := w
  obtain ⟨ids, R, i, cu, f, hf, hR⟩ := a
  cases c with
  | «at» k =>
    have hk : k < s.length := hl
    obtain ⟨hd, b, h1, h2, h3⟩ := cu.load_at i hk
    refine ⟨by rw [h1]; exact h2, _, s[k], h3, by simp [DWalk.elem], rfl, ids, [], i, ?_, f, hf, by simp⟩
    exact .at h1 (by have := i.length_ids; simp only at this; omega) rfl
  | left v rest =>
    obtain ⟨hd, q, R', b, h1, rfl, h3, rfl, h5⟩ := cu.load_left
    obtain ⟨R2, c2, hR2⟩ := cu.next_left i h1
    refine ⟨by rw [h1]; simpa using h3, _, v, h5, rfl, rfl, ids, R2, ?_, ?_, f, hf, fun x hx => hR x (List.mem_cons_of_mem _ (hR2 x hx))⟩
    · cases rest <;> exact i
    · cases rest <;> exact c2
  | popped v =>
    obtain ⟨hd, b, h1, h2, h3⟩ := cu.load_popped
    exact ⟨by rw [h1]; exact h2, _, v, h3, rfl, rfl, ids, [], i, .nil, f, hf, by simp⟩
  | nil => exact hl.elim
  | dead => exact hl.elim

theorem CurIs.left_inv {h : List (DNode T)} {l : DL} {ids : List Nat} {v : T} {rest : List T} {node : Option Nat} {R : List Nat}
    (c : CurIs h l ids (.left v rest) node R) : ∃ hd q R', R = q :: R' ∧ node = some q ∧ l.head = some hd ∧ Runs h hd (q :: R') ∧
      (q :: R').map (vl h) = (v :: rest).map some ∧ (∀ x ∈ q :: R', x ∉ foot l ids ∧ x < h.length) ∧ (q :: R').Nodup := by
  cases c with
  | left hhd hr hv hf hnd => exact ⟨_, _, _, rfl, rfl, hhd, hr, hv, hf, hnd⟩

theorem CurIs.popped_inv {h : List (DNode T)} {l : DL} {ids : List Nat} {v : T} {node : Option Nat} {R : List Nat}
    (c : CurIs h l ids (.popped v) node R) : ∃ hd q, R = [q] ∧ node = some q ∧ l.head = some hd ∧ nx h q = some none ∧
      (q ∉ foot l ids ∧ q < h.length) := by
  cases c with
  | popped hhd hn hv hf => exact ⟨_, _, rfl, rfl, hhd, hn, hf⟩

/-- Writing to a node outside the list. -/
theorem DFrame.setVal {h h' : List (DNode T)} {q : Nat} (v : T) (m : ∀ x, nx h' x = nx h x) (o : ∀ x, pv h' x = pv h x)
    (u : ∀ x, vl h' x = if x = q then some v else vl h x) (len : h'.length = h.length) : DFrame h h' [q] :=
  ⟨by omega, fun x _ hx => ⟨m x, o x, by rw [u, if_neg (by simpa using hx)]⟩⟩

/-- Writing through the pointer. -/
theorem AtW.store {h0 : List (DNode T)} {ft : List Nat} {node : Option Nat} {st : DS T} {w : DWalk T} (a : AtW h0 ft node st w) (hl : w.Live) (v : T) :
    ∃ st', DS.setVal node v st = .ok () st' ∧ AtW h0 ft node st' (w.write v) := by
  obtain ⟨s, c⟩ := w
  obtain ⟨h, l⟩ := st
  obtain ⟨ids, R, i, cu, f, hf, hR⟩ := a
  simp only at i cu f hf
  cases c with
  | «at» k =>
    have hk : k < s.length := hl
    have hlen := i.length_ids
    have hk' : k < ids.length := by omega
    have hn := cu.at_node hk'
    have i2 := i
    rw [split_node hk, split_node hk'] at i2
    obtain ⟨h', e, i', f', len⟩ := i2.setVal (by simp; omega) v
    rw [← split_node hk'] at i' f'
    have es : s.take k ++ v :: s.drop (k + 1) = s.set k v := by rw [List.set_eq_take_append_cons_drop, if_pos hk]
    rw [es] at i'
    refine ⟨⟨h', l⟩, by rw [hn]; exact e, ids, [], i', ?_, f.trans f' hf, hf, by simp⟩
    cases cu with
    | «at» a b c => exact .at a b c
  | left u rest =>
    obtain ⟨hd, q, R', rfl, rfl, hhd, hr, hv, hf', hnd⟩ := cu.left_inv
    obtain ⟨h', e, m, o, u', len⟩ := DS.setVal_view (h := h) (l := l) (p := q) v (hf' q (by simp)).2
    have fr := DFrame.setVal v m o u' len
    refine ⟨⟨h', l⟩, e, ids, q :: R', ?_, ?_, f.trans fr (by simpa using hR q (by simp)), hf, hR⟩
    · exact i.frame fr (fun x hx hc => by simp at hc; subst hc; exact (hf' x (by simp)).1 hx)
    · refine .left hhd (Runs.congr (fun x _ => m x) hr) ?_ (fun x hx => ⟨(hf' x hx).1, by show x < h'.length; rw [len]; exact (hf' x hx).2⟩) hnd
      simp only [List.map_cons, List.cons.injEq] at hv ⊢
      refine ⟨by rw [u', if_pos rfl], ?_⟩
      rw [← hv.2]
      apply List.map_congr_left; intro x hx
      rw [u', if_neg]; rintro rfl; exact (List.nodup_cons.1 hnd).1 hx
  | popped u =>
    obtain ⟨hd, q, rfl, rfl, hhd, hn, hf'⟩ := cu.popped_inv
    obtain ⟨h', e, m, o, u', len⟩ := DS.setVal_view (h := h) (l := l) (p := q) v hf'.2
    have fr := DFrame.setVal v m o u' len
    refine ⟨⟨h', l⟩, e, ids, [q], ?_, ?_, f.trans fr (by simpa using hR q (by simp)), hf, hR⟩
    · exact i.frame fr (fun x hx hc => by simp at hc; subst hc; exact hf'.1 hx)
    · exact .popped hhd (by rw [m, hn]) (by rw [u', if_pos rfl]) ⟨hf'.1, by show q < h'.length; rw [len]; exact hf'.2⟩
  | nil => exact hl.elim
  | dead => exact hl.elim

/-- Results of the model and of the specification that belong together. -/
def Fits (P : DS T → DWalk T → Prop) (Q : DS T → DWalk T → Prop) : Res (DS T) α → Res (DWalk T) α → Prop
  | .ok a st, .ok b w => a = b ∧ P st w
  | .panic st, .panic w => Q st w
  | .diverge, .diverge => True
  | _, _ => False

/-- A callback. -/
theorem AtW.prog [GoZero T] {h0 : List (DNode T)} {ft : List Nat} {node : Option Nat} (p : DProg T α) : ∀ {st : DS T} {w : DWalk T},
    p.Keeps → AtW h0 ft node st w → w.Live → Fits (fun st w => AtW h0 ft node st w ∧ w.Live) (AtW h0 ft node) (p.exec node st) (p.spec w) := by
  induction p with
  | ret a => intro st w _ a hl; exact ⟨rfl, a, hl⟩
  | panic => intro st w _ a hl; exact a
  | hang => intro st w _ a hl; trivial
  | call op k ih =>
    intro st w hk a hl
    obtain ⟨e, a'⟩ := a.call op
    have hl' := hl.after op hk.1
    have hh : (Deque.step w.items op).1 ≠ .hung := by
      cases op <;> simp only [Deque.step] <;> (repeat' split) <;> simp
    simp only [DProg.exec, DProg.spec]
    cases hx : DL.exec st op with
    | mk o st' =>
      rw [hx] at e a'
      simp only at e a'
      rw [← e] at hh ⊢
      cases o with
      | panicked => exact a'
      | hung => exact absurd rfl hh
      | _ => exact ih _ (hk.2 _) a' hl'
  | load k ih =>
    intro st w hk a hl
    obtain ⟨_, n, v, e, ev, rfl, _⟩ := a.load hl
    simp only [DProg.exec, DProg.spec, GoM.bind_def, e, ev]
    exact ih _ (hk _) a hl
  | store v k ih =>
    intro st w hk a hl
    obtain ⟨st', e, a'⟩ := a.store hl v
    simp only [DProg.exec, DProg.spec, GoM.bind_def, e]
    exact ih hk a' (hl.write v)

/-- After moving on from an element the loop is at an element, at the end, or at nil. -/
theorem AtW.cases {h0 : List (DNode T)} {ft : List Nat} {node : Option Nat} {st : DS T} {w : DWalk T} (a : AtW h0 ft node st w) (hd : w.cur ≠ .dead)
    (hh : st.l.head ≠ none) :
    (w.atEnd = false ∧ w.Live ∧ w.cur ≠ .nil) ∨ (w.atEnd = true ∧ node = st.l.head) ∨ (w.atEnd = false ∧ w.cur = .nil ∧ node = none ∧ node ≠ st.l.head) := by
  obtain ⟨s, c⟩ := w
  obtain ⟨ids, R, i, cu, f, hf, hR⟩ := a
  cases c with
  | «at» k =>
    by_cases hk : k < s.length
    · exact .inl ⟨by simp [DWalk.atEnd, hk], hk, by simp⟩
    · obtain ⟨hd, b, v, h1, h2, _⟩ := cu.load_end i hk
      exact .inr (.inl ⟨by simp [DWalk.atEnd]; omega, by rw [h1, h2]⟩)
  | left v rest => exact .inl ⟨rfl, trivial, by simp⟩
  | popped v => exact .inl ⟨rfl, trivial, by simp⟩
  | nil => exact .inr (.inr ⟨rfl, rfl, cu.nil_node, by rw [cu.nil_node]; exact fun e => hh e.symm⟩)
  | dead => exact absurd rfl hd

theorem DWalk.Live.next_ne {w : DWalk T} (hl : w.Live) : w.next.cur ≠ .dead := by
  obtain ⟨s, c⟩ := w
  cases c with
  | left v rest => cases rest <;> simp [DWalk.next]
  | nil => exact hl.elim
  | dead => exact hl.elim
  | _ => simp [DWalk.next]

theorem AtW.head {h0 : List (DNode T)} {ft : List Nat} {node : Option Nat} {st : DS T} {w : DWalk T} (a : AtW h0 ft node st w) (hl : w.Live) :
    st.l.head ≠ none := by
  obtain ⟨s, c⟩ := w
  obtain ⟨ids, R, i, cu, f, hf, hR⟩ := a
  cases cu with
  | «at» h _ _ => simp [h]
  | left h => simp [h]
  | popped h => simp [h]
  | nil => exact hl.elim
  | dead => exact hl.elim

/-- The loop of `ForEachMutableIf`. -/
theorem AtW.loop [GoZero T] {h0 : List (DNode T)} {ft : List Nat} {cb : σ → DProg T (σ × Bool)} (hk : ∀ t, (cb t).Keeps) (fuel : Nat) :
    ∀ {node : Option Nat} {st : DS T} {w : DWalk T} (t : σ), AtW h0 ft node st w → w.cur ≠ .dead → st.l.head ≠ none →
      Fits (fun st w => ∃ node, AtW h0 ft node st w) (fun st w => ∃ node, AtW h0 ft node st w)
        (DL.forEachMutableIfLoopC cb fuel node t st) (DWalk.loop cb fuel t w) := by
  induction fuel with
  | zero => intros; trivial
  | succ fuel ih =>
    intro node st w t a hd hh
    simp only [DL.forEachMutableIfLoopC, GoM.bind_def, GoM.get, DWalk.loop]
    rcases a.cases hd hh with ⟨h1, hl, h3⟩ | ⟨h1, h2⟩ | ⟨h1, h2, h3, h4⟩
    · obtain ⟨hne, n, v, e, _, _, _⟩ := a.load hl
      have hp := AtW.prog (cb t) (hk t) a hl
      simp only [hne, ne_eq, not_false_eq_true, if_true, h1, Bool.false_eq_true, if_false, GoM.bind_def, e]
      cases hx : (cb t).exec node st with
      | ok r st' =>
        cases hy : (cb t).spec w with
        | ok r' w' =>
          rw [hx, hy] at hp
          obtain ⟨rfl, a', hl'⟩ := hp
          obtain ⟨t', b⟩ := r
          cases b with
          | false => simp only [if_true]; exact ⟨rfl, _, a'⟩
          | true =>
            obtain ⟨_, n', _, e', _, _, a2⟩ := a'.load hl'
            simp only [Bool.true_eq_false, if_false, GoM.bind_def, e']
            exact ih t' a2 hl'.next_ne (a'.head hl')
        | panic w' => rw [hx, hy] at hp; exact hp.elim
        | diverge => rw [hx, hy] at hp; exact hp.elim
      | panic st' =>
        cases hy : (cb t).spec w with
        | ok r' w' => rw [hx, hy] at hp; exact hp.elim
        | panic w' => rw [hx, hy] at hp; exact ⟨_, hp⟩
        | diverge => rw [hx, hy] at hp; exact hp.elim
      | diverge =>
        cases hy : (cb t).spec w with
        | ok r' w' => rw [hx, hy] at hp; exact hp.elim
        | panic w' => rw [hx, hy] at hp; exact hp.elim
        | diverge => trivial
    · simp only [h2, ne_eq, not_true_eq_false, if_false, h1, if_true]
      exact ⟨rfl, node, a⟩
    · subst h3
      simp only [h4, ne_eq, not_false_eq_true, if_true, h1, h2, Bool.false_eq_true, if_false, GoM.bind_def, DS.load]
      exact ⟨_, a⟩

/-! ## The other loops -/

theorem DProg.exec_bind [GoZero T] (n : Option Nat) (p : DProg T α) (f : α → DProg T β) : ∀ s : DS T,
    (p.bind f).exec n s = match p.exec n s with
      | .ok a s => (f a).exec n s
      | .panic s => .panic s
      | .diverge => .diverge := by
  induction p with
  | ret a => intro s; rfl
  | panic => intro s; rfl
  | hang => intro s; rfl
  | call op k ih =>
    intro s
    simp only [DProg.bind, DProg.exec]
    cases hx : DL.exec s op with
    | mk o s' => cases o <;> simp only [ih]
  | load k ih => intro s; simp only [DProg.bind, DProg.exec, GoM.bind_def, ih]; cases DS.load n s <;> rfl
  | store v k ih => intro s; simp only [DProg.bind, DProg.exec, GoM.bind_def, ih]; cases DS.setVal n v s <;> rfl

theorem DProg.Keeps.bind {p : DProg T α} {f : α → DProg T β} (hp : p.Keeps) (hf : ∀ a, (f a).Keeps) : (p.bind f).Keeps := by
  induction p with
  | ret a => exact hf a
  | panic => trivial
  | hang => trivial
  | call op k ih => exact ⟨hp.1, fun o => ih o (hp.2 o)⟩
  | load k ih => exact fun v => ih v (hp v)
  | store v k ih => exact ih hp

theorem DL.forEachMutableLoopC_eq [GoZero T] (cb : σ → DProg T σ) (fuel : Nat) : ∀ (n : Option Nat) (t : σ),
    DL.forEachMutableLoopC cb fuel n t = DL.forEachMutableIfLoopC (goOn cb) fuel n t := by
  induction fuel with
  | zero => intros; rfl
  | succ fuel ih =>
    intro n t
    funext s
    simp only [DL.forEachMutableLoopC, DL.forEachMutableIfLoopC, GoM.bind_def, GoM.get, goOn]
    split
    · cases hx : DS.load n s with
      | ok nd s' =>
        simp only [GoM.bind_def, hx, DProg.exec_bind]
        cases hy : (cb t).exec n s' with
        | ok t s' => simp only [DProg.exec, ih]; rfl
        | panic => rfl
        | diverge => rfl
      | panic => simp only [GoM.bind_def, hx]
      | diverge => simp only [GoM.bind_def, hx]
    · rfl

theorem DS.load_state {p : Option Nat} {s s' : DS T} {n : DNode T} (e : DS.load p s = .ok n s') : s' = s := by
  cases p with
  | none => simp [DS.load] at e
  | some p =>
    simp only [DS.load] at e
    split at e
    · injection e with _ e; exact e.symm
    · cases e

theorem DL.forEachIfLoopC_eq [GoZero T] (cb : σ → T → DProg T (σ × Bool)) (fuel : Nat) : ∀ (n : Option Nat) (t : σ),
    DL.forEachIfLoopC cb fuel n t = DL.forEachMutableIfLoopC (byValue cb) fuel n t := by
  induction fuel with
  | zero => intros; rfl
  | succ fuel ih =>
    intro n t
    funext s
    simp only [DL.forEachIfLoopC, DL.forEachMutableIfLoopC, GoM.bind_def, GoM.get, byValue, DProg.exec]
    split
    · cases hx : DS.load n s with
      | ok nd s' =>
        have := DS.load_state hx; subst this
        simp only [GoM.bind_def, hx, ih]
      | panic => simp only [GoM.bind_def, hx]
      | diverge => simp only [GoM.bind_def, hx]
    · rfl

theorem DL.forEachLoopC_eq [GoZero T] (cb : σ → T → DProg T σ) (fuel : Nat) : ∀ (n : Option Nat) (t : σ),
    DL.forEachLoopC cb fuel n t = DL.forEachMutableLoopC (byValue cb) fuel n t := by
  induction fuel with
  | zero => intros; rfl
  | succ fuel ih =>
    intro n t
    funext s
    simp only [DL.forEachLoopC, DL.forEachMutableLoopC, GoM.bind_def, GoM.get, byValue, DProg.exec]
    split
    · cases hx : DS.load n s with
      | ok nd s' =>
        have := DS.load_state hx; subst this
        simp only [GoM.bind_def, hx, ih]
      | panic => simp only [GoM.bind_def, hx]
      | diverge => simp only [GoM.bind_def, hx]
    · rfl

/-- The whole call of `ForEachMutableIf`. -/
theorem DInv.forEachMutableIfC [GoZero T] {h : List (DNode T)} {l : DL} {ids : List Nat} {s : List T} (i : DInv h l ids s)
    {cb : σ → DProg T (σ × Bool)} (hk : ∀ t, (cb t).Keeps) (fuel : Nat) (t : σ) :
    let P := fun st (w : DWalk T) => ∃ ids', DInv st.heap st.l ids' w.items ∧ DFrame h st.heap (foot l ids) ∧
      ∀ x ∈ foot st.l ids', x ∈ foot l ids ∨ h.length ≤ x
    Fits P P (DL.forEachMutableIfC fuel cb t ⟨h, l⟩) (DWalk.run fuel cb t s) := by
  intro P
  cases s with
  | nil =>
    simp only [DL.forEachMutableIfC, GoM.bind_def, i.isEmpty]
    exact ⟨rfl, ids, i, DFrame.refl _ _, fun x hx => .inl hx⟩
  | cons v s =>
    obtain ⟨hd, hhd, he, b, w, ld⟩ := i.enter (by simp)
    simp only [DL.forEachMutableIfC, GoM.bind_def, i.isEmpty, he, Bool.false_eq_true, if_false, GoM.get, hhd, ld, DWalk.run]
    have a : AtW h (foot l ids) (ids ++ [hd]).head? ⟨h, l⟩ ⟨v :: s, .at 0⟩ :=
      ⟨ids, [], i, .at hhd (by omega) (by rw [List.head?_eq_getElem?]), DFrame.refl _ _, fun x hx => .inl hx, by simp⟩
    have := AtW.loop hk fuel t a (by simp) (by simp [hhd])
    have imp : ∀ st (w : DWalk T), (∃ node, AtW h (foot l ids) node st w) → P st w := by
      rintro st w ⟨node, ids', R, a1, _, a3, a4, _⟩
      exact ⟨ids', a1, a3, a4⟩
    revert this
    generalize DL.forEachMutableIfLoopC cb fuel (ids ++ [hd]).head? t ⟨h, l⟩ = r
    generalize DWalk.loop cb fuel t _ = r'
    intro this
    cases r <;> cases r' <;> first | exact this.elim | trivial | exact ⟨this.1, imp _ _ this.2⟩ | exact imp _ _ this

end Stl4go
