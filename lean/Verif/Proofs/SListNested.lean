import Verif.Spec.SListNested
import Verif.Proofs.SListCursor
/-! # SList: loops inside one another -/
namespace Stl4go
variable {T α σ : Type}

/-- The world with the loop variables as iterators with odd numbers. -/
def LCWorld.hide (w : LCWorld T) (hid : Nat → LIter) : LCWorld T :=
  { w with curs := fun x => if x % 2 = 0 then w.curs (x / 2) else hid (x / 2) }

theorem LCWorld.hide_even (w : LCWorld T) (hid : Nat → LIter) (c : Nat) : (w.hide hid).curs (2 * c) = w.curs c := by
  simp [LCWorld.hide]

theorem LCWorld.hide_odd (w : LCWorld T) (hid : Nat → LIter) (d : Nat) : (w.hide hid).curs (2 * d + 1) = hid d := by
  have h1 : (2 * d + 1) % 2 = 1 := by omega
  have h2 : (2 * d + 1) / 2 = d := by omega
  simp [LCWorld.hide, h1, h2]

theorem LCWorld.hide_put (w : LCWorld T) (hid : Nat → LIter) (c : Nat) (p : LIter) :
    (fun x => if x = 2 * c then p else (w.hide hid).curs x) = fun x => if x % 2 = 0 then (if x / 2 = c then p else w.curs (x / 2)) else hid (x / 2) := by
  funext x
  by_cases h : x % 2 = 0
  · by_cases h2 : x / 2 = c
    · have : x = 2 * c := by omega
      simp [this]
    · have : x ≠ 2 * c := by omega
      simp [this, h, h2, LCWorld.hide]
  · have : x ≠ 2 * c := by omega
    simp [this, h, LCWorld.hide]

/-- A call does the same in both. -/
theorem LCWorld.step_hide [GoZero T] (w : LCWorld T) (hid : Nat → LIter) (op : LCOp T) :
    (w.hide hid).step op.outer = ((w.step op).1, (w.step op).2.hide hid) := by
  have hon : ∀ i, (w.hide hid).on i = w.on i := fun i => rfl
  have hfree : (w.hide hid).free = w.free := rfl
  have hback : ∀ i st, (w.hide hid).back i st = (w.back i st).hide hid := fun i st => rfl
  cases op with
  | list i op => rfl
  | iterate c i =>
    simp only [LCOp.outer, LCWorld.step, hon]
    cases LL.iterate (w.on i) with
    | ok it st => simp only [hback, LCWorld.hide_put]; rfl
    | panic st => rfl
    | diverge => rfl
  | isNotEnd c => simp only [LCOp.outer, LCWorld.step, LCWorld.hide_even]
  | value c => simp only [LCOp.outer, LCWorld.step, LCWorld.hide_even]; rfl
  | next c =>
    simp only [LCOp.outer, LCWorld.step, LCWorld.hide_even, hfree]
    cases (w.curs c).moveToNext w.free with
    | ok it st => simp only [LCWorld.hide_put]; rfl
    | panic st => rfl
    | diverge => rfl
  | set c v => simp only [LCOp.outer, LCWorld.step, LCWorld.hide_even]; rfl

/-- The client's world and the loop variables are what the specification says. -/
def LHInv (w : LCWorld T) (hid : Nat → LIter) (st : LCSpec T) : Prop := ∃ ids R, LCInv (w.hide hid) st ids R

/-- A run inside `d` loops, with loop variables `hid`, ended as the specification says. -/
def SettlesL (d : Nat) (hid : Nat → LIter) : Res (LCWorld T) α → Option (Res (LCSpec T) α) → Prop
  | .ok a w, some (.ok b st) => a = b ∧ ∃ hid', (∀ x < d, hid' x = hid x) ∧ LHInv w hid' st
  | .panic w, some (.panic st) => ∃ hid', LHInv w hid' st
  | .diverge, some .diverge => True
  | _, none => True
  | _, _ => False

theorem LHInv.step [GoZero T] {w : LCWorld T} {hid : Nat → LIter} {st st' : LCSpec T} (h : LHInv w hid st) {op : LCOp T} {o : DObs T}
    (hs : st.step op.outer = some (o, st')) : (w.step op).1 = o ∧ LHInv (w.step op).2 hid st' := by
  obtain ⟨ids, R, I⟩ := h
  obtain ⟨ids', R', a, b⟩ := I.step hs
  rw [LCWorld.step_hide] at a b
  exact ⟨a, ids', R', b⟩

/-- `n` as the loop variable of loop `d`. -/
def setHidL (hid : Nat → LIter) (d : Nat) (n : Option Nat) : Nat → LIter := fun x => if x = d then ⟨n⟩ else hid x

theorem LCWorld.hide_setHid (w : LCWorld T) (hid : Nat → LIter) (d : Nat) (n : Option Nat) :
    w.hide (setHidL hid d n) = { w.hide hid with curs := fun x => if x = 2 * d + 1 then ⟨n⟩ else (w.hide hid).curs x } := by
  have : (w.hide (setHidL hid d n)).curs = fun x => if x = 2 * d + 1 then ⟨n⟩ else (w.hide hid).curs x := by
    funext x
    by_cases h : x = 2 * d + 1
    · subst h
      rw [LCWorld.hide_odd]
      simp [setHidL]
    · simp only [h, if_false, LCWorld.hide, setHidL]
      by_cases h2 : x % 2 = 0
      · simp [h2]
      · have : x / 2 ≠ d := by omega
        simp [h2, this]
  rw [← this]
  rfl

/-- The node of the loop: at the end, or with a value and a next node. -/
theorem LHInv.at {w : LCWorld T} {hid : Nat → LIter} {st : LCSpec T} (h : LHInv w hid st) (d : Nat) :
    (st.rest (2 * d + 1) = [] ∧ (hid d).node = none ∧ st.step (.next (2 * d + 1)) = some (.panicked, st)) ∨
    (∃ nd r st', st.rest (2 * d + 1) = nd.value :: r ∧ (hid d).node ≠ none ∧ LCWorld.load (hid d).node w = .ok nd w ∧
      st.step (.next (2 * d + 1)) = some (.unit, st') ∧ LHInv w (setHidL hid d nd.next) st') := by
  obtain ⟨ids, R, I⟩ := h
  have hc := I.cur (2 * d + 1)
  rw [LCWorld.hide_odd] at hc
  rcases hc.cases (I.inv _) with ⟨e, e1, e2, _⟩ | ⟨q, v, r, n', c', e, e1, e2, e3, e4, _, b, _⟩
  · exact .inl ⟨e, e1, by simp [LCSpec.step, e2]⟩
  · refine .inr ⟨⟨n', v⟩, r, st.put (2 * d + 1) (st.curs (2 * d + 1)).1 c', e, by simp [e1], ?_, by simp [LCSpec.step, e4], ids,
      fun x => if x = 2 * d + 1 then (R (2 * d + 1)).tail else R x, ?_⟩
    · rw [e1]
      simp only [LCWorld.load]
      have := LS.load_view (l := {}) e2 e3
      have h2 : LS.load (some q) w.free = .ok ⟨n', v⟩ w.free := this
      rw [h2]
    · rw [LCWorld.hide_setHid]
      exact I.put (2 * d + 1) _ b (fun j q hq => I.out (2 * d + 1) j q (List.mem_of_mem_tail hq))

/-- The start of a loop. -/
theorem LHInv.start {w : LCWorld T} {hid : Nat → LIter} {st : LCSpec T} (h : LHInv w hid st) (d i : Nat) :
    LHInv w (setHidL hid d (w.vars i).head) (st.put (2 * d + 1) i (LCur.start (st.lists i))) := by
  obtain ⟨ids, R, I⟩ := h
  have := I.put (2 * d + 1) i (LCurIs.start (I.inv i)) (by simp)
  rw [LHInv, LCWorld.hide_setHid]
  exact ⟨_, _, this⟩

/-- The client copies the loop variable to a pointer of its own. -/
theorem LHInv.keepPtr {w : LCWorld T} {hid : Nat → LIter} {st : LCSpec T} (h : LHInv w hid st) (d c : Nat) :
    ∃ w', LCWorld.keepPtr c (hid d).node w = .ok () w' ∧ LHInv w' hid (st.put (2 * c) (st.curs (2 * d + 1)).1 (st.curs (2 * d + 1)).2) := by
  obtain ⟨ids, R, I⟩ := h
  refine ⟨_, rfl, ids, fun x => if x = 2 * c then R (2 * d + 1) else R x, ?_⟩
  have hc := I.cur (2 * d + 1)
  rw [LCWorld.hide_odd] at hc
  have := I.put (2 * c) (st.curs (2 * d + 1)).1 hc (I.out (2 * d + 1))
  rw [LCWorld.hide_put] at this
  exact this

theorem SettlesL.unsettled {d : Nat} {hid : Nat → LIter} (r : Res (LCWorld T) α) : SettlesL d hid r none := by cases r <;> trivial

/-- Both loops with a condition: the callback gets the node and its value. -/
def eachL (body : σ → Option Nat → T → GoM (LCWorld T) (σ × Bool)) : (fuel : Nat) → Option Nat → σ → GoM (LCWorld T) σ
  | 0, _, _ => GoM.diverge
  | fuel + 1, n, t =>
    if n ≠ none then do
      let nd ← LCWorld.load n
      let r ← body t n nd.value
      if r.2 = false then return r.1
      else
        let nd ← LCWorld.load n
        eachL body fuel nd.next r.1
    else pure t

theorem LL.forEachIfLoopW_eq (cb : σ → T → GoM (LCWorld T) (σ × Bool)) (fuel : Nat) : ∀ n t,
    LL.forEachIfLoopW cb fuel n t = eachL (fun t _ v => cb t v) fuel n t := by
  induction fuel with
  | zero => intros; rfl
  | succ fuel ih => intro n t; simp only [LL.forEachIfLoopW, eachL, ih]

theorem LL.forEachMutableIfLoopW_eq (c : Nat) (cb : σ → GoM (LCWorld T) (σ × Bool)) (fuel : Nat) : ∀ n t,
    LL.forEachMutableIfLoopW c cb fuel n t = eachL (fun t n _ => do LCWorld.keepPtr c n; cb t) fuel n t := by
  induction fuel with
  | zero => intros; rfl
  | succ fuel ih =>
    intro n t
    simp only [LL.forEachMutableIfLoopW, eachL, ih]
    split
    · funext w
      simp only [GoM.bind_def]
      cases LCWorld.load n w <;> rfl
    · rfl

theorem SettlesL.of_eq {d : Nat} {hid hid0 : Nat → LIter} {r : Res (LCWorld T) α} {s : Option (Res (LCSpec T) α)} (h : SettlesL d hid r s)
    (he : ∀ x < d, hid x = hid0 x) : SettlesL d hid0 r s := by
  cases r with
  | ok a w =>
    match s, h with
    | none, _ => trivial
    | some (.ok b st), ⟨h1, hid', h2, h3⟩ => exact ⟨h1, hid', fun x hx => (h2 x hx).trans (he x hx), h3⟩
  | panic w =>
    match s, h with
    | none, _ => trivial
    | some (.panic st), h => exact h
  | diverge =>
    match s, h with
    | none, _ => trivial
    | some .diverge, h => trivial

theorem SettlesL.bind {β : Type} {d : Nat} {hid : Nat → LIter} {x : GoM (LCWorld T) α} {w : LCWorld T} {s : Option (Res (LCSpec T) α)}
    (h : SettlesL d hid (x w) s) {f : α → GoM (LCWorld T) β} {g : α → LCSpec T → Option (Res (LCSpec T) β)}
    (hf : ∀ a w hid' st, LHInv w hid' st → SettlesL d hid' (f a w) (g a st)) : SettlesL d hid ((x >>= f) w) (andThen s g) := by
  rw [GoM.bind_def]
  revert h
  generalize x w = r
  intro h
  cases s with
  | none => exact .unsettled _
  | some s =>
    cases r with
    | ok a w =>
      cases s with
      | ok b st => obtain ⟨rfl, hid', h2, h3⟩ := h; exact (hf a w hid' st h3).of_eq h2
      | panic st => exact h.elim
      | diverge => exact h.elim
    | panic w =>
      cases s with
      | ok b st => exact h.elim
      | panic st => exact h
      | diverge => exact h.elim
    | diverge =>
      cases s with
      | ok b st => exact h.elim
      | panic st => exact h.elim
      | diverge => trivial

/-- The loop does what the iterator does. -/
theorem eachLoopL_settles (d : Nat) (body : σ → Option Nat → T → GoM (LCWorld T) (σ × Bool)) (cb : σ → T → LCSpec T → Option (Res (LCSpec T) (σ × Bool)))
    (hcb : ∀ t v w hid st, LHInv w hid st → SettlesL (d + 1) hid (body t (hid d).node v w) (cb t v st)) (fuel : Nat) :
    ∀ (n : Option Nat) (t : σ) (w : LCWorld T) (hid : Nat → LIter) (st : LCSpec T), hid d = ⟨n⟩ → LHInv w hid st →
      SettlesL d hid (eachL body fuel n t w) (LCSpec.eachLoop (2 * d + 1) cb fuel t st) := by
  induction fuel with
  | zero => intros; trivial
  | succ fuel ih =>
    intro n t w hid st hn hi
    simp only [LCSpec.eachLoop, eachL]
    rcases hi.at d with ⟨e1, e2, _⟩ | ⟨nd, r, _, e1, e2, e3, _, _⟩
    · rw [hn] at e2
      simp only at e2
      subst e2
      simp only [e1, ne_eq, not_true, if_false]
      exact ⟨rfl, hid, fun _ _ => rfl, hi⟩
    · rw [hn] at e2 e3
      simp only at e2 e3
      rw [e1, if_pos e2]
      have hb := hcb t nd.value w hid st hi
      rw [hn] at hb
      simp only [GoM.bind_def, e3]
      revert hb
      simp only
      cases e4 : body t n nd.value w with
      | ok r w' =>
        cases e5 : cb t nd.value st with
        | none => intro _; exact .unsettled _
        | some s =>
          cases s with
          | ok r' st' =>
            rintro ⟨rfl, hid', b1, b2⟩
            obtain ⟨t', b⟩ := r
            cases b with
            | false => exact ⟨rfl, hid', fun x hx => b1 x (by omega), b2⟩
            | true =>
              simp only [Bool.true_eq_false, if_false, GoM.bind_def]
              have hd' : hid' d = ⟨n⟩ := (b1 d (by omega)).trans hn
              rcases b2.at d with ⟨_, c1, _⟩ | ⟨nd', _, st3, _, _, c1, c2, c3⟩
              · rw [hd'] at c1
                exact absurd c1 e2
              · rw [hd'] at c1
                simp only at c1
                simp only [c1, c2]
                refine (ih nd'.next t' w' _ st3 (by simp [setHidL]) c3).of_eq fun x hx => ?_
                simp only [setHidL, show x ≠ d by omega, if_false]
                exact b1 x (by omega)
          | panic st' => exact fun h => h.elim
          | diverge => exact fun h => h.elim
      | panic w' =>
        cases e5 : cb t nd.value st with
        | none => intro _; trivial
        | some s =>
          cases s with
          | ok r' st' => exact fun h => h.elim
          | panic st' => exact fun h => h
          | diverge => exact fun h => h.elim
      | diverge =>
        cases e5 : cb t nd.value st with
        | none => intro _; trivial
        | some s =>
          cases s with
          | ok r' st' => exact fun h => h.elim
          | panic st' => exact fun h => h.elim
          | diverge => exact fun h => h

/-- A whole call. -/
theorem eachL_settles (d i : Nat) (body : σ → Option Nat → T → GoM (LCWorld T) (σ × Bool)) (cb : σ → T → LCSpec T → Option (Res (LCSpec T) (σ × Bool)))
    (hcb : ∀ t v w hid st, LHInv w hid st → SettlesL (d + 1) hid (body t (hid d).node v w) (cb t v st)) (fuel : Nat)
    (t : σ) (w : LCWorld T) (hid : Nat → LIter) (st : LCSpec T) (hi : LHInv w hid st) :
    SettlesL d hid (eachL body fuel (w.vars i).head t w) (st.each (2 * d + 1) i cb fuel t) :=
  (eachLoopL_settles d body cb hcb fuel _ t w _ _ (by simp [setHidL]) (hi.start d i)).of_eq fun x hx => by
    simp only [setHidL, show x ≠ d by omega, if_false]

/-- A program does what the specification says, inside any loops. -/
theorem EProg.execL_settles [GoZero T] (fuel : Nat) {α : Type} (p : EProg (LCOp T) T α) : ∀ (d : Nat) (w : LCWorld T) (hid : Nat → LIter) (st : LCSpec T),
    LHInv w hid st → SettlesL d hid (p.execL fuel w) (p.specL fuel d st) := by
  induction p with
  | ret a => intro d w hid st hi; exact ⟨rfl, hid, fun _ _ => rfl, hi⟩
  | panic => intro d w hid st hi; exact ⟨hid, hi⟩
  | hang => intro d w hid st hi; trivial
  | call op k ih =>
    intro d w hid st hi
    simp only [EProg.specL, EProg.execL, GoM.bind_def, LCWorld.call]
    cases e : st.step op.outer with
    | none => exact .unsettled _
    | some r =>
      obtain ⟨o, st1⟩ := r
      obtain ⟨a, b⟩ := hi.step e
      rcases hw : w.step op with ⟨o', w'⟩
      rw [hw] at a b
      simp only at a b
      subst a
      cases o' with
      | panicked => exact ⟨hid, b⟩
      | hung => trivial
      | _ => exact ih _ d w' hid st1 b
  | each i cb t k ihcb ihk =>
    intro d w hid st hi
    have := eachL_settles d i (fun t _ v => (cb t v).execL fuel) (fun t v st => (cb t v).specL fuel (d + 1) st)
      (fun t v w hid st h => ihcb t v (d + 1) w hid st h) fuel t w hid st hi
    simp only [← LL.forEachIfLoopW_eq] at this
    exact SettlesL.bind (x := LL.forEachIfW fuel i (fun t v => (cb t v).execL fuel) t) this fun a w' hid' st' h => ihk a d w' hid' st' h
  | eachPtr c i cb t k ihcb ihk =>
    intro d w hid st hi
    have := eachL_settles d i (fun t n _ => do LCWorld.keepPtr c n; (cb t).execL fuel)
      (fun t _ st => (cb t).specL fuel (d + 1) (st.put (2 * c) (st.curs (2 * d + 1)).1 (st.curs (2 * d + 1)).2)) (fun t v w hid st h => by
        obtain ⟨w', a, b⟩ := h.keepPtr d c
        simp only [GoM.bind_def, a]
        exact ihcb t (d + 1) w' hid _ b) fuel t w hid st hi
    simp only [← LL.forEachMutableIfLoopW_eq] at this
    exact SettlesL.bind (x := LL.forEachMutableIfW fuel c i (fun t => (cb t).execL fuel) t) this fun a w' hid' st' h => ihk a d w' hid' st' h

theorem LHInv.init : LHInv (LCWorld.init : LCWorld T) (fun _ => ⟨none⟩) LCSpec.init := by
  refine ⟨fun _ => [], fun _ => [], ?_⟩
  have : (LCWorld.init : LCWorld T).hide (fun _ => ⟨none⟩) = LCWorld.init := by
    simp [LCWorld.hide, LCWorld.init]
  rw [this]
  exact LCInv.init

/-! ## Programs that do not append -/

theorem EProg.Calls.mono {Op : Type} {P Q : Op → Prop} (h : ∀ op, P op → Q op) {α : Type} (p : EProg Op T α) : p.Calls P → p.Calls Q := by
  induction p with
  | ret | panic | hang => exact fun h => h
  | call op k ih => exact fun hp => ⟨h op hp.1, fun o => ih o (hp.2 o)⟩
  | each i cb t k ih1 ih2 => exact fun hp => ⟨fun t v => ih1 t v (hp.1 t v), fun t => ih2 t (hp.2 t)⟩
  | eachPtr c i cb t k ih1 ih2 => exact fun hp => ⟨fun t => ih1 t (hp.1 t), fun t => ih2 t (hp.2 t)⟩

/-- The first `d` loops have the same lists, and those over the lists `P` have the same elements ahead of them. -/
structure KeptL (P : Nat → Prop) (d : Nat) (st st' : LCSpec T) : Prop where
  own : ∀ x < d, (st'.curs (2 * x + 1)).1 = (st.curs (2 * x + 1)).1
  same : ∀ x < d, P (st.curs (2 * x + 1)).1 → st'.rest (2 * x + 1) = st.rest (2 * x + 1)

theorem KeptL.refl (P : Nat → Prop) (d : Nat) (st : LCSpec T) : KeptL P d st st := ⟨fun _ _ => rfl, fun _ _ _ => rfl⟩

theorem KeptL.trans {P : Nat → Prop} {d : Nat} {a b c : LCSpec T} (h1 : KeptL P d a b) (h2 : KeptL P d b c) : KeptL P d a c :=
  ⟨fun x hx => (h2.own x hx).trans (h1.own x hx), fun x hx h => (h2.same x hx (by rw [h1.own x hx]; exact h)).trans (h1.same x hx h)⟩

theorem KeptL.of_le {P : Nat → Prop} {d e : Nat} {a b : LCSpec T} (h : KeptL P d a b) (he : e ≤ d) : KeptL P e a b :=
  ⟨fun x hx => h.own x (by omega), fun x hx => h.same x (by omega)⟩

/-- Moving an iterator that is none of the first `d` loops. -/
theorem KeptL.put {P : Nat → Prop} {d : Nat} (st : LCSpec T) (c i : Nat) (v : LCur T) (hc : ∀ x < d, c ≠ 2 * x + 1) : KeptL P d st (st.put c i v) := by
  have : ∀ x < d, (st.put c i v).curs (2 * x + 1) = st.curs (2 * x + 1) := fun x hx => by simp [LCSpec.put, (hc x hx).symm]
  exact ⟨fun x hx => by rw [this x hx], fun x hx _ => by rw [LCSpec.rest, this x hx]; rfl⟩

/-- Everything but appending and reversing leaves the elements ahead of an iterator as they are. -/
theorem LCur.after_rest (s : List T) {op : LOp T} (h : op.NoAppend) (c : LCur T) : (c.after s op).rest (LSeq.step s op).2 = c.rest s := by
  obtain ⟨pre, pos⟩ := c
  cases pos with
  | none => rfl
  | some k =>
    cases op with
    | make vs => simp [LCur.after, LCur.rest]
    | clear => simp [LCur.after, LCur.rest]
    | pushFront v => simp [LCur.after, LCur.rest, LSeq.step]
    | popFront =>
      cases s with
      | nil => by_cases hk : k = 0 <;> simp [LCur.after, LCur.rest, LSeq.step, hk]
      | cons v s =>
        by_cases hk : k = 0
        · cases s with
          | nil => simp [LCur.after, LCur.rest, hk]
          | cons u s => simp [LCur.after, LCur.rest, LSeq.step, hk]
        · obtain ⟨m, rfl⟩ : ∃ m, k = m + 1 := ⟨k - 1, by omega⟩
          simp [LCur.after, LCur.rest, LSeq.step]
    | pushBack v => exact h.elim
    | reverse => exact h.elim
    | front => cases s <;> simp [LCur.after, LCur.rest, LSeq.step]
    | back =>
      simp only [LCur.after, LCur.rest, LSeq.step]
      split
      · next e => simp [List.getLast?_eq_none_iff.mp e]
      · rfl
    | len => rfl
    | isEmpty => rfl
    | values => rfl
    | iterate => rfl

/-- A call that spares `P`. -/
theorem LCOp.Spares.kept {P : Nat → Prop} {op : LCOp T} (h : op.Spares P) (d : Nat) (st : LCSpec T) :
    ∃ o st', st.step op.outer = some (o, st') ∧ KeptL P d st st' := by
  cases op with
  | list j op =>
    refine ⟨_, _, rfl, fun x hx => ?_, fun x hx hp => ?_⟩
    · simp only
      split
      · next e => exact e.symm
      · rfl
    · simp only [LCSpec.rest]
      by_cases e : (st.curs (2 * x + 1)).1 = j
      · simp only [e, if_true]
        exact LCur.after_rest _ (h (e ▸ hp)) _
      · simp [e]
  | iterate c i => exact ⟨_, _, rfl, KeptL.put st _ _ _ (fun x hx => by omega)⟩
  | isNotEnd c => exact ⟨_, _, rfl, .refl _ _ _⟩
  | value c =>
    simp only [LCOp.outer, LCSpec.step]
    split
    · exact ⟨_, _, rfl, .refl _ _ _⟩
    · exact ⟨_, _, rfl, .refl _ _ _⟩
  | next c =>
    simp only [LCOp.outer, LCSpec.step]
    split
    · exact ⟨_, _, rfl, KeptL.put st _ _ _ (fun x hx => by omega)⟩
    · exact ⟨_, _, rfl, .refl _ _ _⟩
  | set c v => exact h.elim

/-- The step of a loop. -/
theorem LCSpec.step_next (st : LCSpec T) (it : Nat) :
    (∃ c, st.step (.next it) = some (.unit, st.put it (st.curs it).1 c)) ∨ st.step (.next it) = some (.panicked, st) := by
  simp only [LCSpec.step]
  split
  · exact .inl ⟨_, rfl⟩
  · exact .inr rfl

/-- A loop of a program that spares `P`. -/
theorem eachLoopL_kept {P : Nat → Prop} (d : Nat) (cb : σ → T → LCSpec T → Option (Res (LCSpec T) (σ × Bool)))
    (hcb : ∀ t v st, ∃ r, cb t v st = some r ∧ ∀ a st', r = .ok a st' → KeptL P (d + 1) st st') (fuel : Nat) :
    ∀ (t : σ) (st : LCSpec T), ∃ r, LCSpec.eachLoop (2 * d + 1) cb fuel t st = some r ∧ ∀ a st', r = .ok a st' → KeptL P d st st' := by
  induction fuel with
  | zero => intro t st; exact ⟨_, rfl, fun a st' h => nomatch h⟩
  | succ fuel ih =>
    intro t st
    simp only [LCSpec.eachLoop]
    cases e1 : st.rest (2 * d + 1) with
    | nil => exact ⟨_, rfl, fun a st' h => by cases h; exact .refl _ _ _⟩
    | cons v r =>
      simp only
      obtain ⟨r, h1, h2⟩ := hcb t v st
      rw [h1]
      cases r with
      | panic st' => exact ⟨_, rfl, fun a st' h => nomatch h⟩
      | diverge => exact ⟨_, rfl, fun a st' h => nomatch h⟩
      | ok a st' =>
        obtain ⟨t', b⟩ := a
        have hk := h2 _ _ rfl
        cases b with
        | false => exact ⟨_, rfl, fun a st' h => by cases h; exact hk.of_le (by omega)⟩
        | true =>
          simp only
          rcases st'.step_next (2 * d + 1) with ⟨c, e3⟩ | e3
          · simp only [e3]
            obtain ⟨r, r1, r2⟩ := ih t' (st'.put (2 * d + 1) (st'.curs (2 * d + 1)).1 c)
            refine ⟨r, r1, fun a st2 h => ?_⟩
            exact ((hk.of_le (by omega)).trans (KeptL.put st' _ _ _ (fun x hx => by omega))).trans (r2 a st2 h)
          · simp only [e3]
            exact ⟨_, rfl, fun a st' h => nomatch h⟩

theorem eachL_kept {P : Nat → Prop} (d i : Nat) (cb : σ → T → LCSpec T → Option (Res (LCSpec T) (σ × Bool)))
    (hcb : ∀ t v st, ∃ r, cb t v st = some r ∧ ∀ a st', r = .ok a st' → KeptL P (d + 1) st st') (fuel : Nat)
    (t : σ) (st : LCSpec T) : ∃ r, st.each (2 * d + 1) i cb fuel t = some r ∧ ∀ a st', r = .ok a st' → KeptL P d st st' := by
  obtain ⟨r, r1, r2⟩ := eachLoopL_kept (P := P) d cb hcb fuel t (st.put (2 * d + 1) i (LCur.start (st.lists i)))
  exact ⟨r, r1, fun a st' h => (KeptL.put st _ _ _ (fun x hx => by omega)).trans (r2 a st' h)⟩

theorem andThen_keptL {β : Type} {P : Nat → Prop} {d : Nat} {st : LCSpec T} {r : Option (Res (LCSpec T) α)} {f : α → LCSpec T → Option (Res (LCSpec T) β)}
    (h : ∃ r', r = some r' ∧ ∀ a st', r' = .ok a st' → KeptL P d st st')
    (hf : ∀ a st', ∃ r', f a st' = some r' ∧ ∀ b st2, r' = .ok b st2 → KeptL P d st' st2) :
    ∃ r', andThen r f = some r' ∧ ∀ b st2, r' = .ok b st2 → KeptL P d st st2 := by
  obtain ⟨r', rfl, h2⟩ := h
  cases r' with
  | ok a st' =>
    obtain ⟨r2, a1, a2⟩ := hf a st'
    exact ⟨r2, a1, fun b st2 h => (h2 _ _ rfl).trans (a2 b st2 h)⟩
  | panic st' => exact ⟨_, rfl, fun b st2 h => nomatch h⟩
  | diverge => exact ⟨_, rfl, fun b st2 h => nomatch h⟩

/-- The specification settles programs that spare `P`, and these leave what loops over the lists in `P` have ahead of them. -/
theorem EProg.specL_kept {P : Nat → Prop} (fuel : Nat) {α : Type} (p : EProg (LCOp T) T α) : ∀ (_ : p.Calls (LCOp.Spares P)) (d : Nat) (st : LCSpec T),
    ∃ r, p.specL fuel d st = some r ∧ ∀ a st', r = .ok a st' → KeptL P d st st' := by
  induction p with
  | ret a => intro _ d st; exact ⟨_, rfl, fun a st' h => by cases h; exact .refl _ _ _⟩
  | panic => intro _ d st; exact ⟨_, rfl, fun a st' h => nomatch h⟩
  | hang => intro _ d st; exact ⟨_, rfl, fun a st' h => nomatch h⟩
  | call op k ih =>
    intro hp d st
    obtain ⟨o, st1, e, hk⟩ := LCOp.Spares.kept hp.1 d st
    simp only [EProg.specL, e]
    have hgo : ∃ r, (k o).specL fuel d st1 = some r ∧ ∀ a st', r = .ok a st' → KeptL P d st st' := by
      obtain ⟨r, r1, r2⟩ := ih o (hp.2 o) d st1
      exact ⟨r, r1, fun a st' h => hk.trans (r2 a st' h)⟩
    cases o with
    | panicked => exact ⟨_, rfl, fun a st' h => nomatch h⟩
    | hung => exact ⟨_, rfl, fun a st' h => nomatch h⟩
    | _ => exact hgo
  | each i cb t k ihcb ihk =>
    intro hp d st
    exact andThen_keptL (eachL_kept d i _ (fun t v st => ihcb t v (hp.1 t v) (d + 1) st) fuel t st) (fun a st' => ihk a (hp.2 a) d st')
  | eachPtr c i cb t k ihcb ihk =>
    intro hp d st
    refine andThen_keptL (eachL_kept d i _ (fun t v st => ?_) fuel t st) (fun a st' => ihk a (hp.2 a) d st')
    have hput : KeptL P (d + 1) st (st.put (2 * c) (st.curs (2 * d + 1)).1 (st.curs (2 * d + 1)).2) := KeptL.put st _ _ _ (fun x hx => by omega)
    obtain ⟨r, r1, r2⟩ := ihcb t (hp.1 t) (d + 1) (st.put (2 * c) (st.curs (2 * d + 1)).1 (st.curs (2 * d + 1)).2)
    exact ⟨r, r1, fun a st' h => hput.trans (r2 a st' h)⟩

/-- The elements ahead after a step of the loop. -/
theorem LCSpec.next_rest {st st' : LCSpec T} {it : Nat} {v : T} {r : List T} (h : st.rest it = v :: r) (hs : st.step (.next it) = some (.unit, st')) :
    st'.rest it = r ∧ (st'.curs it).1 = (st.curs it).1 := by
  simp only [LCSpec.step, LCSpec.rest] at h hs
  split at hs
  · next c e =>
    simp only [Option.some.injEq, Prod.mk.injEq, true_and] at hs
    subst hs
    refine ⟨?_, by simp [LCSpec.put]⟩
    simp only [LCSpec.rest, LCSpec.put, if_true]
    generalize hc : (st.curs it).2 = cc at *
    generalize (st.lists (st.curs it).1) = s at *
    obtain ⟨pre, pos⟩ := cc
    cases pre with
    | cons u p =>
      simp only [LCur.next, Option.some.injEq] at e
      subst e
      simp only [LCur.rest, List.cons_append, List.cons.injEq] at h ⊢
      exact h.2
    | nil =>
      cases pos with
      | none => simp [LCur.next] at e
      | some k =>
        simp only [LCur.next, Option.some.injEq] at e
        subst e
        simp only [LCur.rest, List.nil_append] at h ⊢
        have hk : k < s.length := by
          by_cases hk : k < s.length
          · exact hk
          · rw [List.drop_eq_nil_of_le (by omega)] at h; cases h
        rw [List.drop_eq_getElem_cons hk] at h
        simp only [List.cons.injEq] at h
        rw [← h.2]
        by_cases h1 : k + 1 < s.length
        · simp [h1]
        · simp [h1, List.drop_eq_nil_of_le (by omega : s.length ≤ k + 1)]
  · cases hs

/-- A loop whose callback does not append to list `i` visits the elements ahead. -/
theorem eachL_visits [GoZero T] (F i : Nat) (cb : σ → T → EProg (LCOp T) T (σ × Bool)) (hcb : ∀ t v, (cb t v).Calls (LCOp.Spares (· = i))) (fuel : Nat) :
    ∀ (n : Option Nat) (t : σ) (w : LCWorld T) (hid : Nat → LIter) (st : LCSpec T), hid 0 = ⟨n⟩ → LHInv w hid st → (st.curs 1).1 = i →
      (st.rest 1).length < fuel →
      eachL (fun t _ v => (cb t v).execL F) fuel n t w = visitM (fun t v => (cb t v).execL F) (st.rest 1) t w := by
  induction fuel with
  | zero => intro n t w hid st _ _ _ h; omega
  | succ fuel ih =>
    intro n t w hid st hn hi ho hf
    simp only [eachL]
    rcases hi.at 0 with ⟨e1, e2, _⟩ | ⟨nd, r, _, e1, e2, e3, _, _⟩
    · rw [hn] at e2
      simp only at e2
      rw [if_neg (by simp [e2]), e1]
      rfl
    · rw [hn] at e2 e3
      simp only at e2 e3
      rw [if_pos e2, e1]
      simp only [visitM, GoM.bind_def, e3]
      have hset := EProg.execL_settles F (cb t nd.value) 1 w hid st hi
      obtain ⟨q, r1, r2⟩ := EProg.specL_kept F (cb t nd.value) (hcb t nd.value) 1 st
      rw [r1] at hset
      cases e4 : (cb t nd.value).execL F w with
      | panic w' => rfl
      | diverge => rfl
      | ok a w' =>
        rw [e4] at hset
        cases q with
        | panic st' => exact hset.elim
        | diverge => exact hset.elim
        | ok b st' =>
          obtain ⟨rfl, hid', b1, b2⟩ := hset
          have hk := r2 _ _ rfl
          obtain ⟨t', b⟩ := a
          cases b with
          | false => rfl
          | true =>
            simp only [Bool.true_eq_false, if_false, GoM.bind_def]
            have hd' : hid' 0 = ⟨n⟩ := (b1 0 (by omega)).trans hn
            have hr : st'.rest (2 * 0 + 1) = nd.value :: r := (hk.same 0 (by omega) ho).trans e1
            have ho' := hk.own 0 (by omega)
            rcases b2.at 0 with ⟨_, c1, _⟩ | ⟨nd', _, st3, _, _, c1, c2, c3⟩
            · rw [hd'] at c1
              exact absurd c1 e2
            · rw [hd'] at c1
              simp only at c1
              simp only [c1]
              obtain ⟨d1, d2⟩ := LCSpec.next_rest hr c2
              have d1 : st3.rest 1 = r := d1
              have e1' : st.rest 1 = nd.value :: r := e1
              rw [e1', List.length_cons] at hf
              have := ih nd'.next t' w' _ st3 (by simp [setHidL]) c3 (d2.trans (ho'.trans ho)) (by rw [d1]; omega)
              rw [d1] at this
              exact this

/-- A call of `ForEachIf` whose callback does not append to list `i`. -/
theorem LL.forEachIfW_visits [GoZero T] (F i : Nat) (cb : σ → T → EProg (LCOp T) T (σ × Bool)) (hcb : ∀ t v, (cb t v).Calls (LCOp.Spares (· = i)))
    (t : σ) {w : LCWorld T} {hid : Nat → LIter} {st : LCSpec T} (hi : LHInv w hid st) (hf : (st.lists i).length < F) :
    LL.forEachIfW F i (fun t v => (cb t v).execL F) t w = visitM (fun t v => (cb t v).execL F) (st.lists i) t w := by
  have hr : (st.put (2 * 0 + 1) i (LCur.start (st.lists i))).rest 1 = st.lists i := by
    simp only [LCSpec.rest, LCSpec.put, LCur.start, LCur.rest]
    by_cases h : (st.lists i).length = 0
    · simp [List.length_eq_zero_iff.mp h]
    · simp [h]
  have := eachL_visits F i cb hcb F (w.vars i).head t w _ _ (by simp [setHidL]) (hi.start 0 i) (by simp [LCSpec.put]) (by rw [hr]; exact hf)
  rw [hr] at this
  simp only [LL.forEachIfW, GoM.bind_def, GoM.get_apply, LL.forEachIfLoopW_eq]
  exact this

/-! ## Loops do not panic -/

theorem LCur.after_ne_nil (s : List T) (op : LOp T) (c : LCur T) (h : c.rest s ≠ []) : (c.after s op).rest (LSeq.step s op).2 ≠ [] := by
  by_cases ha : op.NoAppend
  · rw [LCur.after_rest s ha]; exact h
  · obtain ⟨pre, pos⟩ := c
    cases pos with
    | none => exact h
    | some k =>
      by_cases hp : pre = []
      · subst hp
        have hk : k < s.length := by
          by_cases hk : k < s.length
          · exact hk
          · exact absurd (by simp [LCur.rest, List.drop_eq_nil_of_le (by omega : s.length ≤ k)]) h
        cases op with
        | pushBack v =>
          intro e
          have := congrArg List.length e
          simp [LCur.after, LCur.rest, LSeq.step] at this
          omega
        | reverse =>
          intro e
          have := congrArg List.length e
          simp [LCur.after, LCur.rest, LSeq.step] at this
          omega
        | _ => exact absurd trivial ha
      · cases op with
        | pushBack v => simp [LCur.after, LCur.rest, hp]
        | reverse => simp [LCur.after, LCur.rest, hp]
        | _ => exact absurd trivial ha

/-- Loops that are on an element stay on one. -/
def AliveL (d : Nat) (st st' : LCSpec T) : Prop := ∀ x < d, st.rest (2 * x + 1) ≠ [] → st'.rest (2 * x + 1) ≠ []

theorem AliveL.put {d : Nat} (st : LCSpec T) (c i : Nat) (v : LCur T) (hc : ∀ x < d, c ≠ 2 * x + 1) : AliveL d st (st.put c i v) := by
  intro x hx h
  have : (st.put c i v).curs (2 * x + 1) = st.curs (2 * x + 1) := by simp [LCSpec.put, (hc x hx).symm]
  rw [LCSpec.rest, this]
  exact h

theorem LCOp.step_alive (op : LCOp T) (d : Nat) {st st' : LCSpec T} {o : DObs T} (h : st.step op.outer = some (o, st')) : AliveL d st st' := by
  cases op with
  | list j op =>
    cases h
    intro x hx hne
    simp only [LCSpec.rest] at hne ⊢
    by_cases e : (st.curs (2 * x + 1)).1 = j
    · simp only [e, if_true] at hne ⊢
      exact LCur.after_ne_nil _ _ _ hne
    · simpa [e] using hne
  | iterate c i => cases h; exact AliveL.put st _ _ _ (fun x hx => by omega)
  | isNotEnd c => cases h; exact fun _ _ h => h
  | value c =>
    simp only [LCOp.outer, LCSpec.step] at h
    split at h <;> cases h <;> exact fun _ _ h => h
  | next c =>
    simp only [LCOp.outer, LCSpec.step] at h
    split at h
    · cases h; exact AliveL.put st _ _ _ (fun x hx => by omega)
    · cases h; exact fun _ _ h => h
  | set c v =>
    simp only [LCOp.outer, LCSpec.step] at h
    split at h
    · cases h
    · split at h
      · cases h; exact fun _ _ h => h
      · cases h
        intro x hx hne
        simp only [LCSpec.rest] at hne ⊢
        split
        · intro e
          apply hne
          simp only [LCur.rest, List.append_eq_nil_iff] at e ⊢
          refine ⟨e.1, ?_⟩
          have e2 := e.2
          cases hp : (st.curs (2 * x + 1)).2.pos with
          | none => rfl
          | some k =>
            simp only [hp] at e2
            have := congrArg List.length e2
            simp at this
            simp [List.drop_eq_nil_of_le (by omega : (st.lists (st.curs (2 * x + 1)).1).length ≤ k)]
        · exact hne

theorem LCOp.Calm.step {op : LCOp T} (hc : op.Calm) {st st' : LCSpec T} (h : st.step op.outer = some (.panicked, st')) : False := by
  cases op with
  | list j op =>
    cases op <;> first | exact hc.elim | (simp [LCOp.outer, LCSpec.step, LSeq.step] at h)
  | iterate c i => simp [LCOp.outer, LCSpec.step] at h
  | isNotEnd c => simp [LCOp.outer, LCSpec.step] at h
  | value c => exact hc
  | next c => exact hc
  | set c v => exact hc

/-- How a calm program ends. -/
def CalmEnd (d : Nat) (st : LCSpec T) : Option (Res (LCSpec T) α) → Prop
  | some (.ok _ st') => AliveL d st st'
  | some (.panic _) => False
  | _ => True

theorem CalmEnd.bind {β : Type} {d : Nat} {st : LCSpec T} {r : Option (Res (LCSpec T) α)} (h : CalmEnd d st r)
    {f : α → LCSpec T → Option (Res (LCSpec T) β)} (hf : ∀ a st', CalmEnd d st' (f a st')) : CalmEnd d st (andThen r f) := by
  match r, h with
  | none, _ => trivial
  | some .diverge, _ => trivial
  | some (.ok a st'), h =>
    have := hf a st'
    simp only [andThen]
    revert this
    cases f a st' with
    | none => exact fun h => h
    | some r =>
      cases r with
      | ok b st2 => exact fun h2 x hx hne => h2 x hx (h x hx hne)
      | panic st2 => exact fun h => h
      | diverge => exact fun h => h

theorem eachLoopL_calm (d : Nat) (cb : σ → T → LCSpec T → Option (Res (LCSpec T) (σ × Bool)))
    (hcb : ∀ t v st, CalmEnd (d + 1) st (cb t v st)) (fuel : Nat) :
    ∀ (t : σ) (st : LCSpec T), CalmEnd d st (LCSpec.eachLoop (2 * d + 1) cb fuel t st) := by
  induction fuel with
  | zero => intro t st; trivial
  | succ fuel ih =>
    intro t st
    simp only [LCSpec.eachLoop]
    cases e1 : st.rest (2 * d + 1) with
    | nil => exact fun _ _ h => h
    | cons v r =>
      simp only
      have h := hcb t v st
      revert h
      cases cb t v st with
      | none => exact fun _ => trivial
      | some r =>
        cases r with
        | panic st' => exact fun h => h
        | diverge => exact fun h => h
        | ok a st' =>
          obtain ⟨t', b⟩ := a
          intro hk
          cases b with
          | false => exact fun x hx => hk x (by omega)
          | true =>
            simp only
            have hne := hk d (by omega) (by rw [e1]; simp)
            rcases st'.step_next (2 * d + 1) with ⟨c, e3⟩ | e3
            · simp only [e3]
              have h2 := ih t' (st'.put (2 * d + 1) (st'.curs (2 * d + 1)).1 c)
              have h1 : AliveL d st (st'.put (2 * d + 1) (st'.curs (2 * d + 1)).1 c) := fun x hx h =>
                AliveL.put st' _ _ _ (fun x hx => by omega) x hx (hk x (by omega) h)
              revert h2
              cases LCSpec.eachLoop (2 * d + 1) cb fuel t' (st'.put (2 * d + 1) (st'.curs (2 * d + 1)).1 c) with
              | none => exact fun h => h
              | some r =>
                cases r with
                | ok b st2 => exact fun h2 x hx hne => h2 x hx (h1 x hx hne)
                | panic st2 => exact fun h => h
                | diverge => exact fun h => h
            · exfalso
              simp only [LCSpec.step] at e3
              split at e3
              · cases e3
              · next e =>
                apply hne
                simp only [LCSpec.rest, LCur.next] at e ⊢
                split at e
                · cases e
                · next hp =>
                  split at e
                  · next hq => simp [LCur.rest, hp, hq]
                  · cases e

/-- A program that makes only calls that cannot panic never panics, however its loops change the lists they go over. -/
theorem EProg.specL_calm (fuel : Nat) {α : Type} (p : EProg (LCOp T) T α) : ∀ (_ : p.Calls LCOp.Calm) (_ : p.NoPanic) (d : Nat) (st : LCSpec T),
    CalmEnd d st (p.specL fuel d st) := by
  induction p with
  | ret a => intro _ _ d st x hx h; exact h
  | panic => intro _ hn; exact hn.elim
  | hang => intros; trivial
  | call op k ih =>
    intro hp hn d st
    simp only [EProg.specL]
    cases e : st.step op.outer with
    | none => trivial
    | some r =>
      obtain ⟨o, st1⟩ := r
      have ha := LCOp.step_alive op d e
      have hgo : CalmEnd d st ((k o).specL fuel d st1) := by
        have h2 := ih o (hp.2 o) (hn o) d st1
        revert h2
        cases (k o).specL fuel d st1 with
        | none => exact fun h => h
        | some r =>
          cases r with
          | ok b st2 => exact fun h2 x hx hne => h2 x hx (ha x hx hne)
          | panic st2 => exact fun h => h
          | diverge => exact fun h => h
      cases o with
      | panicked => exact (hp.1.step e).elim
      | hung => trivial
      | _ => exact hgo
  | each i cb t k ihcb ihk =>
    intro hp hn d st
    have := eachLoopL_calm d (fun t v st => (cb t v).specL fuel (d + 1) st) (fun t v st => ihcb t v (hp.1 t v) (hn.1 t v) (d + 1) st) fuel t (st.put (2 * d + 1) i (LCur.start (st.lists i)))
    refine CalmEnd.bind (r := st.each (2 * d + 1) i _ fuel t) ?_ (fun a st' => ihk a (hp.2 a) (hn.2 a) d st')
    have hput : AliveL d st (st.put (2 * d + 1) i (LCur.start (st.lists i))) := AliveL.put st _ _ _ (fun x hx => by omega)
    simp only [LCSpec.each]
    revert this
    cases LCSpec.eachLoop (2 * d + 1) (fun t v st => (cb t v).specL fuel (d + 1) st) fuel t (st.put (2 * d + 1) i (LCur.start (st.lists i))) with
    | none => exact fun h => h
    | some r =>
      cases r with
      | ok b st2 => exact fun h2 x hx hne => h2 x hx (hput x hx hne)
      | panic st2 => exact fun h => h
      | diverge => exact fun h => h
  | eachPtr c i cb t k ihcb ihk =>
    intro hp hn d st
    have := eachLoopL_calm d (fun t _ st => (cb t).specL fuel (d + 1) (st.put (2 * c) (st.curs (2 * d + 1)).1 (st.curs (2 * d + 1)).2)) (fun t v st => by
      have hput : AliveL (d + 1) st (st.put (2 * c) (st.curs (2 * d + 1)).1 (st.curs (2 * d + 1)).2) := AliveL.put st _ _ _ (fun x hx => by omega)
      have h2 := ihcb t (hp.1 t) (hn.1 t) (d + 1) (st.put (2 * c) (st.curs (2 * d + 1)).1 (st.curs (2 * d + 1)).2)
      revert h2
      cases (cb t).specL fuel (d + 1) (st.put (2 * c) (st.curs (2 * d + 1)).1 (st.curs (2 * d + 1)).2) with
      | none => exact fun h => h
      | some r =>
        cases r with
        | ok b st2 => exact fun h2 x hx hne => h2 x hx (hput x hx hne)
        | panic st2 => exact fun h => h
        | diverge => exact fun h => h) fuel t (st.put (2 * d + 1) i (LCur.start (st.lists i)))
    refine CalmEnd.bind (r := st.each (2 * d + 1) i _ fuel t) ?_ (fun a st' => ihk a (hp.2 a) (hn.2 a) d st')
    have hput : AliveL d st (st.put (2 * d + 1) i (LCur.start (st.lists i))) := AliveL.put st _ _ _ (fun x hx => by omega)
    simp only [LCSpec.each]
    revert this
    cases LCSpec.eachLoop (2 * d + 1) (fun t _ st => (cb t).specL fuel (d + 1) (st.put (2 * c) (st.curs (2 * d + 1)).1 (st.curs (2 * d + 1)).2)) fuel t (st.put (2 * d + 1) i (LCur.start (st.lists i))) with
    | none => exact fun h => h
    | some r =>
      cases r with
      | ok b st2 => exact fun h2 x hx hne => h2 x hx (hput x hx hne)
      | panic st2 => exact fun h => h
      | diverge => exact fun h => h

/-! ## `ForEach` and `ForEachMutable` -/

theorem LL.forEachLoopW_eq (cb : σ → T → GoM (LCWorld T) σ) (fuel : Nat) : ∀ n t,
    LL.forEachLoopW cb fuel n t = LL.forEachIfLoopW (fun t v => do let t ← cb t v; return (t, true)) fuel n t := by
  induction fuel with
  | zero => intros; rfl
  | succ fuel ih =>
    intro n t
    funext w
    simp only [LL.forEachLoopW, LL.forEachIfLoopW, ih]
    split
    · simp only [GoM.bind_def]
      cases e : LCWorld.load n w with
      | ok nd w1 =>
        simp only
        cases e2 : cb t nd.value w1 <;> simp only [GoM.pure_apply] <;> rfl
      | panic w1 => rfl
      | diverge => rfl
    · rfl

theorem LL.forEachMutableLoopW_eq (c : Nat) (cb : σ → GoM (LCWorld T) σ) (fuel : Nat) : ∀ n t,
    LL.forEachMutableLoopW c cb fuel n t = LL.forEachMutableIfLoopW c (fun t => do let t ← cb t; return (t, true)) fuel n t := by
  induction fuel with
  | zero => intros; rfl
  | succ fuel ih =>
    intro n t
    funext w
    simp only [LL.forEachMutableLoopW, LL.forEachMutableIfLoopW, ih]
    split
    · simp only [GoM.bind_def]
      cases e : LCWorld.load n w with
      | ok nd w1 =>
        simp only [LCWorld.keepPtr]
        cases e2 : cb t { w1 with curs := fun x => if x = c then ⟨n⟩ else w1.curs x } <;> simp only [GoM.pure_apply] <;> rfl
      | panic w1 => rfl
      | diverge => rfl
    · rfl

end Stl4go
