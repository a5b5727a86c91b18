import Verif.Spec.DListNested
import Verif.Proofs.DListCursor
/-! # DList: loops inside one another -/
namespace Stl4go
variable {T α σ : Type}

/-- The world with the loop variables as iterators with odd numbers. -/
def CWorld.hide (w : CWorld T) (hid : Nat → Nat × DIter) : CWorld T :=
  { w with curs := fun x => if x % 2 = 0 then w.curs (x / 2) else hid (x / 2) }

theorem CWorld.hide_even (w : CWorld T) (hid : Nat → Nat × DIter) (c : Nat) : (w.hide hid).curs (2 * c) = w.curs c := by
  simp [CWorld.hide]

theorem CWorld.hide_odd (w : CWorld T) (hid : Nat → Nat × DIter) (d : Nat) : (w.hide hid).curs (2 * d + 1) = hid d := by
  have h1 : (2 * d + 1) % 2 = 1 := by omega
  have h2 : (2 * d + 1) / 2 = d := by omega
  simp [CWorld.hide, h1, h2]

theorem CWorld.hide_put (w : CWorld T) (hid : Nat → Nat × DIter) (c : Nat) (p : Nat × DIter) :
    (fun x => if x = 2 * c then p else (w.hide hid).curs x) = fun x => if x % 2 = 0 then (if x / 2 = c then p else w.curs (x / 2)) else hid (x / 2) := by
  funext x
  by_cases h : x % 2 = 0
  · by_cases h2 : x / 2 = c
    · have : x = 2 * c := by omega
      simp [this]
    · have : x ≠ 2 * c := by omega
      simp [this, h, h2, CWorld.hide]
  · have : x ≠ 2 * c := by omega
    simp [this, h, CWorld.hide]

/-- A call does the same in both. -/
theorem CWorld.step_hide [GoZero T] (w : CWorld T) (hid : Nat → Nat × DIter) (op : COp T) :
    (w.hide hid).step op.outer = ((w.step op).1, (w.step op).2.hide hid) := by
  have hon : ∀ i, (w.hide hid).on i = w.on i := fun i => rfl
  have hback : ∀ i st, (w.hide hid).back i st = (w.back i st).hide hid := fun i st => rfl
  have hmove : ∀ c i m, (w.hide hid).move (2 * c) i m = ((w.move c i m).1, (w.move c i m).2.hide hid) := by
    intro c i m
    simp only [CWorld.move, hon]
    cases m (w.on i) with
    | ok it st =>
      simp only [hback, CWorld.hide_put]
      rfl
    | panic st => rfl
    | diverge => rfl
  cases op with
  | list i op => rfl
  | iterate c i => exact hmove c i _
  | isNotEnd c => simp only [COp.outer, CWorld.step, CWorld.hide_even]; rfl
  | value c => simp only [COp.outer, CWorld.step, CWorld.hide_even]; rfl
  | next c => simp only [COp.outer, CWorld.step, CWorld.hide_even]; exact hmove c _ _
  | set c v => simp only [COp.outer, CWorld.step, CWorld.hide_even]; rfl

/-- The client's world and the loop variables are what the specification says. -/
def HInv (w : CWorld T) (hid : Nat → Nat × DIter) (st : CSpec T) : Prop := ∃ ids R, CInv (w.hide hid) st ids R

/-- A run inside `d` loops, with loop variables `hid`, ended as the specification says. -/
def SettlesW (d : Nat) (hid : Nat → Nat × DIter) : Res (CWorld T) α → Option (Res (CSpec T) α) → Prop
  | .ok a w, some (.ok b st) => a = b ∧ ∃ hid', (∀ x < d, hid' x = hid x) ∧ HInv w hid' st
  | .panic w, some (.panic st) => ∃ hid', HInv w hid' st
  | .diverge, some .diverge => True
  | _, none => True
  | _, _ => False

theorem HInv.step [GoZero T] {w : CWorld T} {hid : Nat → Nat × DIter} {st st' : CSpec T} (h : HInv w hid st) {op : COp T} {o : DObs T}
    (hs : st.step op.outer = some (o, st')) : (w.step op).1 = o ∧ HInv (w.step op).2 hid st' := by
  obtain ⟨ids, R, I⟩ := h
  obtain ⟨ids', R', a, b⟩ := I.step hs
  rw [CWorld.step_hide] at a b
  exact ⟨a, ids', R', b⟩

/-- `n` as the loop variable of loop `d`. -/
def setHid (hid : Nat → Nat × DIter) (d i : Nat) (n : Option Nat) : Nat → Nat × DIter := fun x => if x = d then (i, ⟨n⟩) else hid x

theorem CWorld.hide_setHid (w : CWorld T) (hid : Nat → Nat × DIter) (d i : Nat) (n : Option Nat) :
    (w.hide (setHid hid d i n)).curs = fun x => if x = 2 * d + 1 then (i, ⟨n⟩) else (w.hide hid).curs x := by
  funext x
  by_cases h : x = 2 * d + 1
  · subst h
    rw [CWorld.hide_odd]
    simp [setHid]
  · simp only [h, if_false, CWorld.hide, setHid]
    by_cases h2 : x % 2 = 0
    · simp [h2]
    · have : x / 2 ≠ d := by omega
      simp [h2, this]

/-- The loop reads its node. -/
theorem HInv.value [GoZero T] {w : CWorld T} {hid : Nat → Nat × DIter} {st st' : CSpec T} (h : HInv w hid st) {d : Nat} {o : DObs T}
    (hs : st.step (.value (2 * d + 1)) = some (o, st')) :
    (∃ n, CWorld.load (hid d).2.node w = .ok n w ∧ o = .val n.value) ∨ (CWorld.load (hid d).2.node w = .panic w ∧ o = .panicked) := by
  obtain ⟨ids, R, I⟩ := h
  obtain ⟨ids', R', a, b⟩ := I.step hs
  simp only [CWorld.step, CWorld.hide_odd, DS.observe, DIter.value, GoM.bind_def] at a
  cases hn : (hid d).2.node with
  | none =>
    rw [hn] at a
    simp only [DS.load] at a
    exact .inr ⟨rfl, a.symm⟩
  | some q =>
    rw [hn] at a
    have hh : ((w.hide hid).on (hid d).1).heap = w.heap := rfl
    have hh0 : (w.on 0).heap = w.heap := rfl
    simp only [DS.load, hh] at a
    cases e : w.heap[q]? with
    | none =>
      rw [e] at a
      exact .inr ⟨by simp [CWorld.load, DS.load, hh0, e], a.symm⟩
    | some n =>
      rw [e] at a
      exact .inl ⟨n, by simp [CWorld.load, DS.load, hh0, e], a.symm⟩

/-- The loop compares its node with the head. -/
theorem HInv.isNotEnd [GoZero T] {w : CWorld T} {hid : Nat → Nat × DIter} {st st' : CSpec T} (h : HInv w hid st) {d : Nat} {o : DObs T}
    (hs : st.step (.isNotEnd (2 * d + 1)) = some (o, st')) : o = .flag (decide ((hid d).2.node ≠ (w.vars (hid d).1).head)) := by
  obtain ⟨ids, R, I⟩ := h
  obtain ⟨ids', R', a, b⟩ := I.step hs
  rw [← a]
  simp [CWorld.step, CWorld.hide_odd, DS.observe, DIter.isNotEnd, GoM.bind_def]
  rfl

/-- The loop goes on. -/
theorem HInv.next [GoZero T] {w : CWorld T} {hid : Nat → Nat × DIter} {st st' : CSpec T} (h : HInv w hid st) {d : Nat} {o : DObs T}
    (hs : st.step (.next (2 * d + 1)) = some (o, st')) :
    (∃ n, CWorld.load (hid d).2.node w = .ok n w ∧ o = .unit ∧ HInv w (setHid hid d (hid d).1 n.next) st') ∨
      (CWorld.load (hid d).2.node w = .panic w ∧ o = .panicked ∧ HInv w hid st') := by
  obtain ⟨ids, R, I⟩ := h
  obtain ⟨ids', R', a, b⟩ := I.step hs
  simp only [CWorld.step, CWorld.hide_odd, CWorld.move, DIter.moveToNext, GoM.bind_def] at a b
  have hback := CWorld.back_on (w.hide hid) (hid d).1
  have hon : (w.hide hid).on (hid d).1 = w.on (hid d).1 := rfl
  rw [hon] at hback
  have hh : ((w.hide hid).on (hid d).1).heap = w.heap := rfl
  have hh0 : (w.on 0).heap = w.heap := rfl
  cases hn : (hid d).2.node with
  | none =>
    rw [hn] at a b
    simp only [DS.load, hon, hback] at a b
    exact .inr ⟨rfl, a.symm, ids', R', b⟩
  | some q =>
    rw [hn] at a b
    simp only [DS.load, hh] at a b
    cases e : w.heap[q]? with
    | none =>
      simp only [e, hon, hback] at a b
      exact .inr ⟨by simp [CWorld.load, DS.load, hh0, e], a.symm, ids', R', b⟩
    | some n =>
      simp only [e, hon, GoM.pure_apply, hback] at a b
      refine .inl ⟨n, by simp [CWorld.load, DS.load, hh0, e], a.symm, ids', R', ?_⟩
      have := CWorld.hide_setHid w hid d (hid d).1 n.next
      have e2 : w.hide (setHid hid d (hid d).1 n.next) = { w.hide hid with curs := fun x => if x = 2 * d + 1 then ((hid d).1, ⟨n.next⟩) else (w.hide hid).curs x } := by
        rw [← this]; rfl
      rw [e2]
      exact b

/-- The start of a loop over a list that is not empty. -/
theorem HInv.iterate [GoZero T] {w : CWorld T} {hid : Nat → Nat × DIter} {st st' : CSpec T} (h : HInv w hid st) (d i : Nat) {o : DObs T}
    (hne : (st.lists i).items ≠ []) (hs : st.step (.iterate (2 * d + 1) i) = some (o, st')) :
    (w.vars i).length ≠ 0 ∧ ∃ n, CWorld.load (w.vars i).head w = .ok n w ∧ HInv w (setHid hid d i n.next) st' := by
  obtain ⟨ids, R, I⟩ := h
  have hi := I.inv i
  obtain ⟨ids', R', a, b⟩ := I.step hs
  have hlen : (w.vars i).length = (st.lists i).items.length := hi.len
  refine ⟨by rw [hlen]; have := List.length_pos_iff.2 hne; omega, ?_⟩
  have hb := I.born i
  obtain ⟨hd, e, _⟩ := hi.head_of_ne hne
  have e : (w.vars i).head = some hd := e
  have hh0 : (w.on 0).heap = w.heap := rfl
  have hback := CWorld.back_on (w.hide hid) i
  have hon : (w.hide hid).on i = w.on i := rfl
  have hl : (w.on i).l.head = some hd := e
  have hhp : (w.on i).heap = w.heap := rfl
  rw [hon] at hback
  simp only [CWorld.step, CWorld.move, DL.iterate, GoM.bind_def, GoM.get_apply, hon, hl] at a b
  simp only [ne_eq, reduceCtorEq, not_false_eq_true, if_true, GoM.bind_def, DS.load, hhp] at a b
  cases en : w.heap[hd]? with
  | none =>
    exfalso
    rw [en] at a
    simp only [CSpec.step, Option.some.injEq, Prod.mk.injEq] at hs
    rw [← hs.1] at a
    cases a
  | some n =>
    simp only [en, GoM.pure_apply, hback] at a b
    refine ⟨n, by simp [CWorld.load, DS.load, hh0, e, en], ids', R', ?_⟩
    have := CWorld.hide_setHid w hid d i n.next
    have e2 : w.hide (setHid hid d i n.next) = { w.hide hid with curs := fun x => if x = 2 * d + 1 then (i, ⟨n.next⟩) else (w.hide hid).curs x } := by
      rw [← this]; rfl
    rw [e2]
    exact b

theorem SettlesW.unsettled {d : Nat} {hid : Nat → Nat × DIter} (r : Res (CWorld T) α) : SettlesW d hid r none := by cases r <;> trivial

/-- Both loops with a condition: the callback gets the node and its value. -/
def eachW (i : Nat) (body : σ → Option Nat → T → GoM (CWorld T) (σ × Bool)) : (fuel : Nat) → Option Nat → σ → GoM (CWorld T) σ
  | 0, _, _ => GoM.diverge
  | fuel + 1, n, t => do
    let w ← GoM.get
    if n ≠ (w.vars i).head then
      let nd ← CWorld.load n
      let r ← body t n nd.value
      if r.2 = false then return r.1
      else
        let nd ← CWorld.load n
        eachW i body fuel nd.next r.1
    else return t

theorem forEachIfLoopW_eq (i : Nat) (cb : σ → T → GoM (CWorld T) (σ × Bool)) (fuel : Nat) : ∀ n t,
    DL.forEachIfLoopW i cb fuel n t = eachW i (fun t _ v => cb t v) fuel n t := by
  induction fuel with
  | zero => intros; rfl
  | succ fuel ih => intro n t; simp only [DL.forEachIfLoopW, eachW, ih]

theorem forEachMutableIfLoopW_eq (c i : Nat) (cb : σ → GoM (CWorld T) (σ × Bool)) (fuel : Nat) : ∀ n t,
    DL.forEachMutableIfLoopW c i cb fuel n t = eachW i (fun t n _ => do CWorld.keepPtr c i n; cb t) fuel n t := by
  induction fuel with
  | zero => intros; rfl
  | succ fuel ih =>
    intro n t
    simp only [DL.forEachMutableIfLoopW, eachW, ih]
    funext w
    simp only [GoM.bind_def, GoM.get_apply]
    split
    · simp only [GoM.bind_def]
      cases CWorld.load n w <;> rfl
    · rfl

theorem SettlesW.of_eq {d : Nat} {hid hid0 : Nat → Nat × DIter} {r : Res (CWorld T) α} {s : Option (Res (CSpec T) α)} (h : SettlesW d hid r s)
    (he : ∀ x < d, hid x = hid0 x) : SettlesW d hid0 r s := by
  cases r with
  | ok a w =>
    match s, h with
    | none, _ => trivial
    | some (.ok b st), ⟨h1, hid', h2, h3⟩ => exact ⟨h1, hid', fun x hx => (h2 x hx).trans (he x hx), h3⟩
  | panic w =>
    match s, h with
    | none, _ => trivial
    | some (.panic st), h => exact h
  | diverge =>
    match s, h with
    | none, _ => trivial
    | some .diverge, h => trivial

theorem SettlesW.bind {β : Type} {d : Nat} {hid : Nat → Nat × DIter} {x : GoM (CWorld T) α} {w : CWorld T} {s : Option (Res (CSpec T) α)}
    (h : SettlesW d hid (x w) s) {f : α → GoM (CWorld T) β} {g : α → CSpec T → Option (Res (CSpec T) β)}
    (hf : ∀ a w hid' st, HInv w hid' st → SettlesW d hid' (f a w) (g a st)) : SettlesW d hid ((x >>= f) w) (andThen s g) := by
  rw [GoM.bind_def]
  revert h
  generalize x w = r
  intro h
  cases s with
  | none => exact .unsettled _
  | some s =>
    cases r with
    | ok a w =>
      cases s with
      | ok b st => obtain ⟨rfl, hid', h2, h3⟩ := h; exact (hf a w hid' st h3).of_eq h2
      | panic st => exact h.elim
      | diverge => exact h.elim
    | panic w =>
      cases s with
      | ok b st => exact h.elim
      | panic st => exact h
      | diverge => exact h.elim
    | diverge =>
      cases s with
      | ok b st => exact h.elim
      | panic st => exact h.elim
      | diverge => trivial

/-- The loop does what the iterator does. -/
theorem eachLoop_settles [GoZero T] (d i : Nat) (body : σ → Option Nat → T → GoM (CWorld T) (σ × Bool)) (cb : σ → T → CSpec T → Option (Res (CSpec T) (σ × Bool)))
    (hcb : ∀ t v w hid st, (hid d).1 = i → HInv w hid st → SettlesW (d + 1) hid (body t (hid d).2.node v w) (cb t v st)) (fuel : Nat) :
    ∀ (n : Option Nat) (t : σ) (w : CWorld T) (hid : Nat → Nat × DIter) (st : CSpec T), hid d = (i, ⟨n⟩) → HInv w hid st →
      SettlesW d hid (eachW i body fuel n t w) (CSpec.eachLoop (2 * d + 1) cb fuel t st) := by
  induction fuel with
  | zero => intros; trivial
  | succ fuel ih =>
    intro n t w hid st hn hi
    simp only [CSpec.eachLoop, eachW, GoM.bind_def, GoM.get_apply]
    cases e1 : st.step (.isNotEnd (2 * d + 1)) with
    | none => exact .unsettled _
    | some r =>
      obtain ⟨o, st1⟩ := r
      have := hi.isNotEnd e1
      subst this
      simp only [hn]
      by_cases hne : n ≠ (w.vars i).head
      · simp only [hne, not_false_eq_true, ne_eq, decide_true, if_true, GoM.bind_def]
        cases e2 : st.step (.value (2 * d + 1)) with
        | none => exact .unsettled _
        | some r =>
          obtain ⟨o, st2⟩ := r
          rcases hi.value e2 with ⟨nd, a1, rfl⟩ | ⟨a1, rfl⟩
          · rw [hn] at a1
            simp only at a1
            have hb := hcb t nd.value w hid st (by rw [hn]) hi
            rw [hn] at hb
            simp only [a1]
            revert hb
            simp only
            cases e3 : body t n nd.value w with
            | ok r w' =>
              cases e4 : cb t nd.value st with
              | none => intro _; exact .unsettled _
              | some s =>
                cases s with
                | ok r' st' =>
                  rintro ⟨rfl, hid', b1, b2⟩
                  obtain ⟨t', b⟩ := r
                  cases b with
                  | false => exact ⟨rfl, hid', fun x hx => b1 x (by omega), b2⟩
                  | true =>
                    simp only [Bool.true_eq_false, if_false, GoM.bind_def]
                    have hd' : hid' d = (i, ⟨n⟩) := (b1 d (by omega)).trans hn
                    cases e5 : st'.step (.next (2 * d + 1)) with
                    | none => exact .unsettled _
                    | some r =>
                      obtain ⟨o, st3⟩ := r
                      rcases b2.next e5 with ⟨nd', c1, rfl, c2⟩ | ⟨c1, rfl, c2⟩
                      · rw [hd'] at c1 c2
                        simp only at c1 c2
                        simp only [c1]
                        refine (ih nd'.next t' w' _ st3 (by simp [setHid]) c2).of_eq fun x hx => ?_
                        simp only [setHid, show x ≠ d by omega, if_false]
                        exact b1 x (by omega)
                      · rw [hd'] at c1
                        simp only at c1
                        simp only [c1]
                        exact ⟨hid', c2⟩
                | panic st' => exact fun h => h.elim
                | diverge => exact fun h => h.elim
            | panic w' =>
              cases e4 : cb t nd.value st with
              | none => intro _; trivial
              | some s =>
                cases s with
                | ok r' st' => exact fun h => h.elim
                | panic st' => exact fun h => h
                | diverge => exact fun h => h.elim
            | diverge =>
              cases e4 : cb t nd.value st with
              | none => intro _; trivial
              | some s =>
                cases s with
                | ok r' st' => exact fun h => h.elim
                | panic st' => exact fun h => h.elim
                | diverge => exact fun h => h
          · rw [hn] at a1
            simp only at a1
            simp only [a1]
            exact ⟨hid, hi⟩
      · simp only [hne, decide_false, if_false]
        exact ⟨rfl, hid, fun _ _ => rfl, hi⟩

/-- A whole call. -/
theorem each_settles [GoZero T] (d i : Nat) (body : σ → Option Nat → T → GoM (CWorld T) (σ × Bool)) (cb : σ → T → CSpec T → Option (Res (CSpec T) (σ × Bool)))
    (hcb : ∀ t v w hid st, (hid d).1 = i → HInv w hid st → SettlesW (d + 1) hid (body t (hid d).2.node v w) (cb t v st)) (fuel : Nat)
    (t : σ) (w : CWorld T) (hid : Nat → Nat × DIter) (st : CSpec T) (hi : HInv w hid st) :
    SettlesW d hid ((if (w.vars i).length = 0 then pure t else do let h ← CWorld.load (w.vars i).head; eachW i body fuel h.next t : GoM (CWorld T) σ) w)
      (st.each (2 * d + 1) i cb fuel t) := by
  simp only [CSpec.each]
  by_cases hne : (st.lists i).items = []
  · have h0 : (w.vars i).length = 0 := by
      obtain ⟨ids, R, I⟩ := hi
      have : (w.vars i).length = (st.lists i).items.length := (I.inv i).len
      rw [this, hne]; rfl
    rw [if_pos hne, if_pos h0]
    exact ⟨rfl, hid, fun _ _ => rfl, hi⟩
  · rw [if_neg hne]
    cases e : st.step (.iterate (2 * d + 1) i) with
    | none => exact .unsettled _
    | some r =>
      obtain ⟨o, st1⟩ := r
      obtain ⟨h0, n, a, b⟩ := hi.iterate d i hne e
      simp only [h0, if_false, GoM.bind_def, a]
      refine (eachLoop_settles d i body cb hcb fuel n.next t w _ st1 (by simp [setHid]) b).of_eq fun x hx => ?_
      simp only [setHid, show x ≠ d by omega, if_false]

/-- The client copies the loop variable to a pointer of its own. -/
theorem HInv.keepPtr {w : CWorld T} {hid : Nat → Nat × DIter} {st : CSpec T} (h : HInv w hid st) {d i : Nat} (hd : (hid d).1 = i) (c : Nat) :
    ∃ w', CWorld.keepPtr c i (hid d).2.node w = .ok () w' ∧ HInv w' hid (st.put (2 * c) i (st.curs (2 * d + 1)).2) := by
  obtain ⟨ids, R, I⟩ := h
  refine ⟨_, rfl, ids, fun x => if x = 2 * c then R (2 * d + 1) else R x, ?_⟩
  have ho := I.own (2 * d + 1)
  rw [CWorld.hide_odd, hd] at ho
  have hc := I.cur (2 * d + 1)
  rw [CWorld.hide_odd, ← ho] at hc
  have := I.put (2 * c) i hc (I.out (2 * d + 1))
  rw [CWorld.hide_put] at this
  exact this

/-- A program does what the specification says, inside any loops. -/
theorem EProg.exec_settles [GoZero T] (fuel : Nat) {α : Type} (p : EProg (COp T) T α) : ∀ (d : Nat) (w : CWorld T) (hid : Nat → Nat × DIter) (st : CSpec T),
    HInv w hid st → SettlesW d hid (p.exec fuel w) (p.spec fuel d st) := by
  induction p with
  | ret a => intro d w hid st hi; exact ⟨rfl, hid, fun _ _ => rfl, hi⟩
  | panic => intro d w hid st hi; exact ⟨hid, hi⟩
  | hang => intro d w hid st hi; trivial
  | call op k ih =>
    intro d w hid st hi
    simp only [EProg.spec, EProg.exec, GoM.bind_def, CWorld.call]
    cases e : st.step op.outer with
    | none => exact .unsettled _
    | some r =>
      obtain ⟨o, st1⟩ := r
      obtain ⟨a, b⟩ := hi.step e
      rcases hw : w.step op with ⟨o', w'⟩
      rw [hw] at a b
      simp only at a b
      subst a
      cases o' with
      | panicked => exact ⟨hid, b⟩
      | hung => trivial
      | _ => exact ih _ d w' hid st1 b
  | each i cb t k ihcb ihk =>
    intro d w hid st hi
    have := each_settles d i (fun t _ v => (cb t v).exec fuel) (fun t v st => (cb t v).spec fuel (d + 1) st)
      (fun t v w hid st _ h => ihcb t v (d + 1) w hid st h) fuel t w hid st hi
    simp only [← forEachIfLoopW_eq] at this
    exact SettlesW.bind (x := DL.forEachIfW fuel i (fun t v => (cb t v).exec fuel) t) this fun a w' hid' st' h => ihk a d w' hid' st' h
  | eachPtr c i cb t k ihcb ihk =>
    intro d w hid st hi
    have := each_settles d i (fun t n _ => do CWorld.keepPtr c i n; (cb t).exec fuel)
      (fun t _ st => (cb t).spec fuel (d + 1) (st.put (2 * c) i (st.curs (2 * d + 1)).2)) (fun t v w hid st hd h => by
        obtain ⟨w', a, b⟩ := h.keepPtr hd c
        simp only [GoM.bind_def, a]
        exact ihcb t (d + 1) w' hid _ b) fuel t w hid st hi
    simp only [← forEachMutableIfLoopW_eq] at this
    exact SettlesW.bind (x := DL.forEachMutableIfW fuel c i (fun t => (cb t).exec fuel) t) this fun a w' hid' st' h => ihk a d w' hid' st' h

/-! ## Programs that leave some lists as they are -/

/-- The lists `P` are the same, and the first `d` loops over them are where they were; the others are still usable. -/
structure Kept (P : Nat → Prop) (d : Nat) (st st' : CSpec T) : Prop where
  lists : ∀ i, P i → st'.lists i = st.lists i
  own : ∀ x < d, (st'.curs (2 * x + 1)).1 = (st.curs (2 * x + 1)).1
  alive : ∀ x < d, (st.curs (2 * x + 1)).2 ≠ .dead → (st'.curs (2 * x + 1)).2 ≠ .dead
  same : ∀ x < d, P (st.curs (2 * x + 1)).1 → st'.curs (2 * x + 1) = st.curs (2 * x + 1)

theorem Kept.refl (P : Nat → Prop) (d : Nat) (st : CSpec T) : Kept P d st st :=
  ⟨fun _ _ => rfl, fun _ _ => rfl, fun _ _ h => h, fun _ _ _ => rfl⟩

theorem Kept.trans {P : Nat → Prop} {d : Nat} {a b c : CSpec T} (h1 : Kept P d a b) (h2 : Kept P d b c) : Kept P d a c :=
  ⟨fun i hi => (h2.lists i hi).trans (h1.lists i hi), fun x hx => (h2.own x hx).trans (h1.own x hx), fun x hx h => h2.alive x hx (h1.alive x hx h),
    fun x hx h => (h2.same x hx (by rw [h1.own x hx]; exact h)).trans (h1.same x hx h)⟩

theorem Kept.of_le {P : Nat → Prop} {d e : Nat} {a b : CSpec T} (h : Kept P d a b) (he : e ≤ d) : Kept P e a b :=
  ⟨h.lists, fun x hx => h.own x (by omega), fun x hx => h.alive x (by omega), fun x hx => h.same x (by omega)⟩

/-- Moving an iterator that is none of the first `d` loops. -/
theorem Kept.put {P : Nat → Prop} {d : Nat} (st : CSpec T) (c i : Nat) (v : DCur T) (hc : ∀ x < d, c ≠ 2 * x + 1) : Kept P d st (st.put c i v) := by
  have : ∀ x < d, (st.put c i v).curs (2 * x + 1) = st.curs (2 * x + 1) := fun x hx => by simp [CSpec.put, (hc x hx).symm]
  exact ⟨fun _ _ => rfl, fun x hx => by rw [this x hx], fun x hx h => by rw [this x hx]; exact h, fun x hx _ => this x hx⟩

theorem DCur.after_alive (s : List T) {op : DOp T} (hm : ∀ vs, op ≠ .make vs) {c : DCur T} (hc : c ≠ .dead) : c.after s op ≠ .dead := by
  cases c with
  | «at» k =>
    cases op <;> simp only [DCur.after, ne_eq] <;> first | exact absurd rfl (hm _) | skip
    all_goals first | (intro h; cases h; done) | (split <;> first | (intro h; cases h; done) | (split <;> first | (intro h; cases h; done) | (split <;> (intro h; cases h))))
  | dead => exact (hc rfl).elim
  | _ => cases op <;> simp only [DCur.after, ne_eq] <;> first | exact absurd rfl (hm _) | (intro h; cases h)

theorem DCur.after_reading (s : List T) {op : DOp T} (hr : op.Reading) (c : DCur T) : c.after s op = c := by
  cases op <;> first | exact hr.elim | (cases c <;> rfl)

theorem Deque.step_reading [GoZero T] (s : List T) {op : DOp T} (hr : op.Reading) : (Deque.step s op).2 = s := by
  cases op <;> first | exact hr.elim | skip
  all_goals simp only [Deque.step]
  all_goals first | rfl | (split <;> first | rfl | (next h => exact (List.getLast?_eq_none_iff.mp h).symm))

/-- A call that spares `P`. -/
theorem COp.Spares.kept [GoZero T] {P : Nat → Prop} {op : COp T} (h : op.Spares P) (d : Nat) (st : CSpec T) :
    ∃ o st', st.step op.outer = some (o, st') ∧ Kept P d st st' := by
  cases op with
  | list j op =>
    obtain ⟨hm, hr⟩ := h
    refine ⟨_, _, rfl, fun i hi => ?_, fun x hx => ?_, fun x hx hne => ?_, fun x hx hp => ?_⟩
    · simp only
      by_cases hj : i = j
      · subst hj
        have hb : CList.bornAfter (st.lists i).born op = (st.lists i).born := by
          have := hr hi
          cases op <;> first | exact this.elim | rfl
        simp [CList.after, Deque.step_reading _ (hr hi), hb]
      · simp [hj]
    · simp only
      split
      · next e => exact e.symm
      · rfl
    · simp only
      split
      · exact DCur.after_alive _ hm hne
      · exact hne
    · simp only
      split
      · next e => rw [DCur.after_reading _ (hr (e ▸ hp)), ← e]
      · rfl
  | _ => exact h.elim

/-- A loop of a program that spares `P`. -/
theorem eachLoop_kept [GoZero T] {P : Nat → Prop} (d : Nat) (cb : σ → T → CSpec T → Option (Res (CSpec T) (σ × Bool)))
    (hcb : ∀ t v st, (∀ x < d + 1, (st.curs (2 * x + 1)).2 ≠ .dead) → ∃ r, cb t v st = some r ∧ ∀ a st', r = .ok a st' → Kept P (d + 1) st st') (fuel : Nat) :
    ∀ (t : σ) (st : CSpec T), (∀ x < d + 1, (st.curs (2 * x + 1)).2 ≠ .dead) →
      ∃ r, CSpec.eachLoop (2 * d + 1) cb fuel t st = some r ∧ ∀ a st', r = .ok a st' → Kept P d st st' := by
  induction fuel with
  | zero => intro t st _; exact ⟨_, rfl, fun a st' h => nomatch h⟩
  | succ fuel ih =>
    intro t st hd
    have hdd := hd d (by omega)
    obtain ⟨b, e1⟩ : ∃ b, st.step (.isNotEnd (2 * d + 1)) = some (.flag b, st) := by
      simp only [CSpec.step]
      cases e : (st.curs (2 * d + 1)).2 with
      | dead => exact (hdd e).elim
      | _ => exact ⟨_, rfl⟩
    simp only [CSpec.eachLoop, e1]
    cases b with
    | false => exact ⟨_, rfl, fun a st' h => by cases h; exact .refl _ _ _⟩
    | true =>
      simp only
      have e2 : (∃ v, st.step (.value (2 * d + 1)) = some (.val v, st)) ∨ st.step (.value (2 * d + 1)) = some (.panicked, st) := by
        simp only [CSpec.step] at e1 ⊢
        cases e : (st.curs (2 * d + 1)).2 with
        | dead => exact (hdd e).elim
        | «at» k =>
          rw [e] at e1
          simp only [Option.some.injEq, Prod.mk.injEq, DObs.flag.injEq, decide_eq_true_eq, and_true] at e1
          simp only [List.getElem?_eq_getElem e1]
          exact .inl ⟨_, rfl⟩
        | left v rest => exact .inl ⟨_, rfl⟩
        | popped v => exact .inl ⟨_, rfl⟩
        | nil => exact .inr rfl
      rcases e2 with ⟨v, e2⟩ | e2
      · simp only [e2]
        obtain ⟨r, h1, h2⟩ := hcb t v st hd
        rw [h1]
        cases r with
        | panic st' => exact ⟨_, rfl, fun a st' h => nomatch h⟩
        | diverge => exact ⟨_, rfl, fun a st' h => nomatch h⟩
        | ok a st' =>
          obtain ⟨t', b⟩ := a
          have hk := h2 _ _ rfl
          cases b with
          | false => exact ⟨_, rfl, fun a st' h => by cases h; exact hk.of_le (by omega)⟩
          | true =>
            simp only
            have hd' : ∀ x < d + 1, (st'.curs (2 * x + 1)).2 ≠ .dead := fun x hx => hk.alive x hx (hd x hx)
            have e3 : (∃ c, c ≠ .dead ∧ st'.step (.next (2 * d + 1)) = some (.unit, st'.put (2 * d + 1) (st'.curs (2 * d + 1)).1 c)) ∨
                st'.step (.next (2 * d + 1)) = some (.panicked, st') := by
              simp only [CSpec.step]
              cases e : (st'.curs (2 * d + 1)).2 with
              | dead => exact (hd' d (by omega) e).elim
              | «at» k =>
                simp only
                by_cases hlt : k < (st'.lists (st'.curs (2 * d + 1)).1).items.length
                · exact .inl ⟨.at (k + 1), (fun h => nomatch h), by rw [if_pos hlt]⟩
                · exact .inl ⟨.at 0, (fun h => nomatch h), by rw [if_neg hlt]⟩
              | left v rest =>
                cases rest with
                | nil => exact .inl ⟨.at _, (fun h => nomatch h), rfl⟩
                | cons u rest => exact .inl ⟨.left u rest, (fun h => nomatch h), rfl⟩
              | popped v => exact .inl ⟨.nil, (fun h => nomatch h), rfl⟩
              | nil => exact .inr rfl
            rcases e3 with ⟨c, hc, e3⟩ | e3
            · simp only [e3]
              obtain ⟨r, r1, r2⟩ := ih t' (st'.put (2 * d + 1) (st'.curs (2 * d + 1)).1 c) (fun x hx => by
                by_cases hxd : x = d
                · subst hxd; simpa [CSpec.put] using hc
                · have : ¬ (2 * x + 1 : Nat) = 2 * d + 1 := by omega
                  simp only [CSpec.put, if_neg this]
                  exact hd' x hx)
              refine ⟨r, r1, fun a st2 h => ?_⟩
              exact ((hk.of_le (by omega)).trans (Kept.put st' _ _ _ (fun x hx => by omega))).trans (r2 a st2 h)
            · simp only [e3]
              exact ⟨_, rfl, fun a st' h => nomatch h⟩
      · simp only [e2]
        exact ⟨_, rfl, fun a st' h => nomatch h⟩

theorem each_kept [GoZero T] {P : Nat → Prop} (d i : Nat) (cb : σ → T → CSpec T → Option (Res (CSpec T) (σ × Bool)))
    (hcb : ∀ t v st, (∀ x < d + 1, (st.curs (2 * x + 1)).2 ≠ .dead) → ∃ r, cb t v st = some r ∧ ∀ a st', r = .ok a st' → Kept P (d + 1) st st') (fuel : Nat)
    (t : σ) (st : CSpec T) (hd : ∀ x < d, (st.curs (2 * x + 1)).2 ≠ .dead) :
    ∃ r, st.each (2 * d + 1) i cb fuel t = some r ∧ ∀ a st', r = .ok a st' → Kept P d st st' := by
  simp only [CSpec.each]
  split
  · exact ⟨_, rfl, fun a st' h => by cases h; exact .refl _ _ _⟩
  · simp only [CSpec.step]
    obtain ⟨r, r1, r2⟩ := eachLoop_kept (P := P) d cb hcb fuel t (st.put (2 * d + 1) i (if (st.lists i).born = true then .at 0 else .nil)) (fun x hx => by
      by_cases hxd : x = d
      · subst hxd
        simp only [CSpec.put, if_true]
        split <;> exact fun h => nomatch h
      · have : ¬ (2 * x + 1 : Nat) = 2 * d + 1 := by omega
        simp only [CSpec.put, if_neg this]
        exact hd x (by omega))
    exact ⟨r, r1, fun a st' h => (Kept.put st _ _ _ (fun x hx => by omega)).trans (r2 a st' h)⟩

theorem andThen_kept {β : Type} {P : Nat → Prop} {d : Nat} {st : CSpec T} {r : Option (Res (CSpec T) α)} {f : α → CSpec T → Option (Res (CSpec T) β)}
    (h : ∃ r', r = some r' ∧ ∀ a st', r' = .ok a st' → Kept P d st st')
    (hf : ∀ a st', Kept P d st st' → ∃ r', f a st' = some r' ∧ ∀ b st2, r' = .ok b st2 → Kept P d st' st2) :
    ∃ r', andThen r f = some r' ∧ ∀ b st2, r' = .ok b st2 → Kept P d st st2 := by
  obtain ⟨r', rfl, h2⟩ := h
  cases r' with
  | ok a st' =>
    have hk := h2 _ _ rfl
    obtain ⟨r2, a1, a2⟩ := hf a st' hk
    exact ⟨r2, a1, fun b st2 h => hk.trans (a2 b st2 h)⟩
  | panic st' => exact ⟨_, rfl, fun b st2 h => nomatch h⟩
  | diverge => exact ⟨_, rfl, fun b st2 h => nomatch h⟩

/-- The specification settles programs that spare `P`, and these leave the lists in `P` and the loops over them as they are. -/
theorem EProg.spec_kept [GoZero T] {P : Nat → Prop} (fuel : Nat) {α : Type} (p : EProg (COp T) T α) : ∀ (_ : p.Calls (COp.Spares P)) (d : Nat) (st : CSpec T),
    (∀ x < d, (st.curs (2 * x + 1)).2 ≠ .dead) → ∃ r, p.spec fuel d st = some r ∧ ∀ a st', r = .ok a st' → Kept P d st st' := by
  induction p with
  | ret a => intro _ d st _; exact ⟨_, rfl, fun a st' h => by cases h; exact .refl _ _ _⟩
  | panic => intro _ d st _; exact ⟨_, rfl, fun a st' h => nomatch h⟩
  | hang => intro _ d st _; exact ⟨_, rfl, fun a st' h => nomatch h⟩
  | call op k ih =>
    intro hp d st hd
    obtain ⟨o, st1, e, hk⟩ := COp.Spares.kept hp.1 d st
    simp only [EProg.spec, e]
    have hgo : ∃ r, (k o).spec fuel d st1 = some r ∧ ∀ a st', r = .ok a st' → Kept P d st st' := by
      obtain ⟨r, r1, r2⟩ := ih o (hp.2 o) d st1 (fun x hx => hk.alive x hx (hd x hx))
      exact ⟨r, r1, fun a st' h => hk.trans (r2 a st' h)⟩
    cases o with
    | panicked => exact ⟨_, rfl, fun a st' h => nomatch h⟩
    | hung => exact ⟨_, rfl, fun a st' h => nomatch h⟩
    | _ => exact hgo
  | each i cb t k ihcb ihk =>
    intro hp d st hd
    exact andThen_kept (each_kept d i _ (fun t v st h => ihcb t v (hp.1 t v) (d + 1) st h) fuel t st hd)
      (fun a st' hk => ihk a (hp.2 a) d st' (fun x hx => hk.alive x hx (hd x hx)))
  | eachPtr c i cb t k ihcb ihk =>
    intro hp d st hd
    refine andThen_kept (each_kept d i _ (fun t v st h => ?_) fuel t st hd)
      (fun a st' hk => ihk a (hp.2 a) d st' (fun x hx => hk.alive x hx (hd x hx)))
    have hput : Kept P (d + 1) st (st.put (2 * c) i (st.curs (2 * d + 1)).2) := Kept.put st _ _ _ (fun x hx => by omega)
    obtain ⟨r, r1, r2⟩ := ihcb t (hp.1 t) (d + 1) _ (fun x hx => hput.alive x hx (h x hx))
    exact ⟨r, r1, fun a st' h => hput.trans (r2 a st' h)⟩

/-- A loop whose callback leaves list `i` alone visits the elements that are still to come. -/
theorem eachW_visits [GoZero T] (F i : Nat) (cb : σ → T → EProg (COp T) T (σ × Bool)) (hcb : ∀ t v, (cb t v).Calls (COp.Spares (· = i))) (s : List T) (fuel : Nat) :
    ∀ (n : Option Nat) (t : σ) (w : CWorld T) (hid : Nat → Nat × DIter) (st : CSpec T) (k : Nat), hid 0 = (i, ⟨n⟩) → HInv w hid st → st.curs 1 = (i, .at k) →
      (st.lists i).items = s → k ≤ s.length → s.length - k < fuel →
      eachW i (fun t _ v => (cb t v).exec F) fuel n t w = visitM (fun t v => (cb t v).exec F) (s.drop k) t w := by
  induction fuel with
  | zero => intro n t w hid st k _ _ _ _ _ h; omega
  | succ fuel ih =>
    intro n t w hid st k hn hi hc hs hk hf
    have e1 : st.step (.isNotEnd (2 * 0 + 1)) = some (.flag (decide (k < s.length)), st) := by simp [CSpec.step, hc, hs]
    have c1 := hi.isNotEnd (d := 0) e1
    rw [hn] at c1
    simp only [DObs.flag.injEq, decide_eq_decide] at c1
    simp only [eachW, GoM.bind_def, GoM.get_apply]
    by_cases hlt : k < s.length
    · rw [if_pos (c1.1 hlt)]
      rw [List.drop_eq_getElem_cons hlt]
      simp only [visitM, GoM.bind_def]
      have e2 : st.step (.value (2 * 0 + 1)) = some (.val s[k], st) := by simp [CSpec.step, hc, hs, hlt]
      obtain ⟨nd, a1, a2⟩ : ∃ nd, CWorld.load (hid 0).2.node w = .ok nd w ∧ DObs.val s[k] = .val nd.value := by
        rcases hi.value (d := 0) e2 with h | ⟨_, a2⟩
        · exact h
        · cases a2
      rw [hn] at a1
      simp only [DObs.val.injEq] at a1 a2
      simp only [a1, ← a2]
      have hset := EProg.exec_settles F (cb t s[k]) 1 w hid st hi
      obtain ⟨r, r1, r2⟩ := EProg.spec_kept F (cb t s[k]) (hcb t s[k]) 1 st (fun x hx => by
        have : x = 0 := by omega
        subst this
        simp [hc])
      rw [r1] at hset
      cases e3 : (cb t s[k]).exec F w with
      | panic w' => rfl
      | diverge => rfl
      | ok a w' =>
        rw [e3] at hset
        cases r with
        | panic st' => exact hset.elim
        | diverge => exact hset.elim
        | ok b st' =>
          obtain ⟨rfl, hid', b1, b2⟩ := hset
          have hk' := r2 _ _ rfl
          obtain ⟨t', b⟩ := a
          cases b with
          | false => rfl
          | true =>
            simp only [Bool.true_eq_false, if_false, GoM.bind_def]
            have hd' : hid' 0 = (i, ⟨n⟩) := (b1 0 (by omega)).trans hn
            have hc' : st'.curs 1 = (i, .at k) := (hk'.same 0 (by omega) (by simp [hc])).trans hc
            have hs' : (st'.lists i).items = s := by rw [hk'.lists i rfl]; exact hs
            have e4 : st'.step (.next (2 * 0 + 1)) = some (.unit, st'.put 1 i (.at (k + 1))) := by simp [CSpec.step, hc', hs', hlt]
            rcases b2.next (d := 0) e4 with ⟨nd', d1, -, d2⟩ | ⟨_, d1, _⟩
            · rw [hd'] at d1 d2
              simp only at d1 d2
              simp only [d1]
              exact ih nd'.next t' w' _ _ (k + 1) (by simp [setHid]) d2 (by simp [CSpec.put]) hs' (by omega) (by omega)
            · cases d1
    · rw [if_neg (fun h => hlt (c1.2 h))]
      rw [List.drop_eq_nil_of_le (by omega)]
      rfl

/-- A call of `ForEachIf` whose callback leaves list `i` alone. -/
theorem forEachIfW_visits [GoZero T] (F i : Nat) (cb : σ → T → EProg (COp T) T (σ × Bool)) (hcb : ∀ t v, (cb t v).Calls (COp.Spares (· = i)))
    (t : σ) {w : CWorld T} {hid : Nat → Nat × DIter} {st : CSpec T} (hi : HInv w hid st) (hf : (st.lists i).items.length < F) :
    DL.forEachIfW F i (fun t v => (cb t v).exec F) t w = visitM (fun t v => (cb t v).exec F) (st.lists i).items t w := by
  by_cases hne : (st.lists i).items = []
  · obtain ⟨ids, R, I⟩ := hi
    have hlen : (w.vars i).length = (st.lists i).items.length := (I.inv i).len
    rw [hne] at hlen ⊢
    simp only [DL.forEachIfW, GoM.bind_def, GoM.get_apply]
    rw [if_pos (by simp [hlen])]
    rfl
  · have hb : (st.lists i).born = true := by
      obtain ⟨ids, R, I⟩ := hi
      obtain ⟨hd, e, _⟩ := (I.inv i).head_of_ne hne
      have := (I.born i)
      rw [this]
      exact congrArg Option.isSome e
    have e1 : st.step (.iterate (2 * 0 + 1) i) = some (.unit, st.put 1 i (.at 0)) := by simp [CSpec.step, hb]
    obtain ⟨a, n, b, c⟩ := hi.iterate 0 i hne e1
    simp only [DL.forEachIfW, GoM.bind_def, GoM.get_apply]
    rw [if_neg a]
    simp only [GoM.bind_def, b]
    rw [forEachIfLoopW_eq]
    have := eachW_visits F i cb hcb (st.lists i).items F n.next t w _ _ 0 (by simp [setHid]) c (by simp [CSpec.put]) rfl (by omega) (by omega)
    simpa using this

theorem HInv.init : HInv (CWorld.init : CWorld T) (fun _ => (0, ⟨none⟩)) CSpec.init := by
  refine ⟨fun _ => [], fun _ => [], ?_⟩
  have : (CWorld.init : CWorld T).hide (fun _ => (0, ⟨none⟩)) = CWorld.init := by
    simp [CWorld.hide, CWorld.init]
  rw [this]
  exact CInv.init

/-- A callback that changes nothing. -/
theorem visitM_pure {S : Type} (cb : σ → T → GoM S (σ × Bool)) (f : σ → T → σ) (w : S) (h : ∀ t v, cb t v w = .ok (f t v, true) w) (s : List T) :
    ∀ t, visitM cb s t w = .ok (s.foldl f t) w := by
  induction s with
  | nil => intro t; rfl
  | cons v s ih => intro t; simp [visitM, GoM.bind_def, h, ih]

theorem forEachLoopW_eq (i : Nat) (cb : σ → T → GoM (CWorld T) σ) (fuel : Nat) : ∀ n t,
    DL.forEachLoopW i cb fuel n t = DL.forEachIfLoopW i (fun t v => do let t ← cb t v; return (t, true)) fuel n t := by
  induction fuel with
  | zero => intros; rfl
  | succ fuel ih =>
    intro n t
    funext w
    simp only [DL.forEachLoopW, DL.forEachIfLoopW, ih, GoM.bind_def, GoM.get_apply]
    split
    · simp only [GoM.bind_def]
      cases e : CWorld.load n w with
      | ok nd w1 =>
        simp only
        cases e2 : cb t nd.value w1 <;> simp only [GoM.pure_apply] <;> rfl
      | panic w1 => rfl
      | diverge => rfl
    · rfl

theorem forEachMutableLoopW_eq (c i : Nat) (cb : σ → GoM (CWorld T) σ) (fuel : Nat) : ∀ n t,
    DL.forEachMutableLoopW c i cb fuel n t = DL.forEachMutableIfLoopW c i (fun t => do let t ← cb t; return (t, true)) fuel n t := by
  induction fuel with
  | zero => intros; rfl
  | succ fuel ih =>
    intro n t
    funext w
    simp only [DL.forEachMutableLoopW, DL.forEachMutableIfLoopW, ih, GoM.bind_def, GoM.get_apply]
    split
    · simp only [GoM.bind_def]
      cases e : CWorld.load n w with
      | ok nd w1 =>
        simp only [CWorld.keepPtr]
        cases e2 : cb t { w1 with curs := fun x => if x = c then (i, ⟨n⟩) else w1.curs x } <;> simp only [GoM.pure_apply] <;> rfl
      | panic w1 => rfl
      | diverge => rfl
    · rfl

end Stl4go
