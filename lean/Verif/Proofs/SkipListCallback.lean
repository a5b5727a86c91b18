import Verif.Proofs.SkipListCursor
import Verif.Spec.SkipListCallback
/-! # SkipList callbacks: the loop is an iterator; invariant through the callback's operations -/
namespace Stl4go
variable {K V α β σ : Type} {impl : SLImpl K}

/-- The list is in the state `x.spec`, and the loop is on node `n`. -/
def AtS (impl : SLImpl K) (w : SCWorld K V) (x : SWalk K V) (n : Option Nat) : Prop :=
  ∃ ids D, SCInv impl w x.spec ids D ∧ PathAt w.sl ids D x.cur.gone x.cur.start n

/-- The list is in the state `x.spec`. -/
def HoldsS (impl : SLImpl K) (w : SCWorld K V) (x : SWalk K V) : Prop := ∃ ids D, SCInv impl w x.spec ids D

theorem AtS.holds {w : SCWorld K V} {x : SWalk K V} {n : Option Nat} (a : AtS impl w x n) : HoldsS impl w x := by
  obtain ⟨ids, D, I, _⟩ := a
  exact ⟨ids, D, I⟩

theorem AtS.call (hl : impl.Lawful) {w : SCWorld K V} {x : SWalk K V} {n : Option Nat} (a : AtS impl w x n) (op : SCOp K V) :
    (w.step impl op).1 = (x.spec.step impl.less op).1 ∧ AtS impl (w.step impl op).2 (x.op impl.less op) n := by
  obtain ⟨ids, D, I, hp⟩ := a
  obtain ⟨e, ids', D', fc, I', hc, hfc⟩ := I.step hl op
  refine ⟨e, ids', D', I', ?_⟩
  have := hc _ _ hp
  have e2 : fc x.cur = (x.op impl.less op).cur := by rw [hfc]; rfl
  rw [← e2]; exact this

theorem AtS.cases (hl : impl.Lawful) {w : SCWorld K V} {x : SWalk K V} {n : Option Nat} (a : AtS impl w x n) :
    (x.entry impl.less = none ∧ n = none) ∨
    (∃ q nd e d c, x.entry impl.less = some e ∧ x.cur.place = some d ∧ n = some q ∧ w.sl.nodes[q]? = some nd ∧ nd.key = e.1 ∧ nd.value = e.2 ∧
      x.cur.next impl.less x.spec.map = some c ∧ ∃ nx, nd.next[0]? = some nx ∧ AtS impl w { x with cur := c } nx) := by
  obtain ⟨ids, D, I, hp⟩ := a
  rcases I.deref hl hp.place with ⟨e1, rfl⟩ | ⟨d, q, e, nd, e1, rfl, e2, e3, e4, e5⟩
  · exact .inl ⟨by simp [SWalk.entry, e1], rfl⟩
  · rcases I.next hl hp with ⟨_, _, h⟩ | ⟨q', nd', nx, c, h1, h2, h3, h4, h5, _⟩
    · cases h
    · cases h1
      rw [e3] at h2
      cases h2
      exact .inr ⟨q, nd, e, d, c, by simp [SWalk.entry, e1, e2], e1, rfl, e3, e4, e5, h4, nx, h3, ids, D, I, h5⟩

theorem AtS.store (hl : impl.Lawful) {w : SCWorld K V} {x : SWalk K V} {q : Nat} (a : AtS impl w x (some q)) (v : V) :
    ∃ d sl', x.cur.place = some d ∧ w.sl.setValue q v = .ret sl' ∧
      AtS impl { w with sl := sl' } { x with spec := x.spec.assign impl.less v d } (some q) := by
  obtain ⟨ids, D, I, hp⟩ := a
  have hpl := hp.place
  cases hd : x.cur.place with
  | none => rw [hd] at hpl; exact hpl.elim
  | some d =>
    rw [hd] at hpl
    obtain ⟨sl', a1, a2, a3⟩ := I.base.assign hl (w := x.spec) hpl v
    refine ⟨d, sl', rfl, a1, ids, D, ⟨a2, fun c => ?_, fun p => ?_⟩, a3.path _ _ hp⟩
    · have := a3.cur _ _ (I.curs c)
      cases d <;> exact this
    · have := a3.ptr _ _ (I.ptrs p)
      rw [Option.map_id] at this
      cases d <;> exact this

theorem AtS.save {w : SCWorld K V} {x : SWalk K V} {n : Option Nat} (a : AtS impl w x n) (p : Nat) :
    AtS impl (w.point p n) { x with spec := x.spec.point p x.cur.place } n := by
  obtain ⟨ids, D, I, hp⟩ := a
  exact ⟨ids, D, I.point p hp.place, hp⟩

/-- The same ending; `P` after returning, `Q` after a panic. -/
def FitsS (P Q : SCWorld K V → SWalk K V → Prop) : Res (SCWorld K V) α → Res (SWalk K V) α → Prop
  | .ok a st, .ok b w => a = b ∧ P st w
  | .panic st, .panic w => Q st w
  | .diverge, .diverge => True
  | _, _ => False

theorem SMap.step_ne_hung (less : K → K → Bool) (m : List (K × V)) (op : SMOp K V) : (SMap.step less m op).1 ≠ .hung := by
  cases op <;> simp [SMap.step]

theorem SCSpec.step_ne_hung (less : K → K → Bool) (s : SCSpec K V) (op : SCOp K V) : (s.step less op).1 ≠ .of .hung := by
  cases op with
  | map r op => simp only [SCSpec.step]; intro h; injection h with h; exact SMap.step_ne_hung _ _ _ h
  | _ => simp only [SCSpec.step] <;> (try split) <;> simp

theorem AtS.prog (hl : impl.Lawful) {q : Nat} (p : SProg K V α) : ∀ {w : SCWorld K V} {x : SWalk K V}, AtS impl w x (some q) →
    FitsS (fun w x => AtS impl w x (some q)) (HoldsS impl) (p.exec impl q w) (p.spec impl.less x) := by
  induction p with
  | ret a => intro w x h; exact ⟨rfl, h⟩
  | panic => intro w x h; exact h.holds
  | hang => intro w x h; trivial
  | call op k ih =>
    intro w x h
    obtain ⟨e, h'⟩ := h.call hl op
    simp only [SProg.exec, SProg.spec]
    rw [← e]
    have hh := SCSpec.step_ne_hung impl.less x.spec op
    rw [← e] at hh
    revert hh h'
    generalize w.step impl op = r
    obtain ⟨o, st⟩ := r
    intro h' hh
    cases o with
    | key k => exact ih _ h'
    | of o => cases o <;> first | exact h'.holds | exact absurd rfl hh | exact ih _ h'
  | load k ih =>
    intro w x h
    simp only [SProg.exec, SProg.spec, GoM.bind_def]
    rcases h.cases hl with ⟨_, e⟩ | ⟨q', nd, e, d, c, e1, _, e2, e3, _, e5, _⟩
    · cases e
    · cases e2
      have : w.sl.readPtr q = .ret e.2 := by simp [SL.readPtr, SL.deref, idx, e3, e5]
      simp only [SCWorld.read, this, e1]
      exact ih _ h
  | store v k ih =>
    intro w x h
    simp only [SProg.exec, SProg.spec, GoM.bind_def]
    obtain ⟨d, sl', e1, e2, h'⟩ := h.store hl v
    simp only [SCWorld.read, e1, e2, GoM.modify_apply]
    exact ih h'
  | save p k ih =>
    intro w x h
    simp only [SProg.exec, SProg.spec, GoM.bind_def, GoM.modify_apply]
    exact ih (h.save p)

theorem AtS.loop (hl : impl.Lawful) (cb : σ → K → SProg K V (σ × Bool)) (fuel : Nat) :
    ∀ {w : SCWorld K V} {x : SWalk K V} {n : Option Nat} (t : σ), AtS impl w x n →
    FitsS (HoldsS impl) (HoldsS impl) (SL.forEachMutableIfLoopC impl cb fuel n t w) (SWalk.loop impl.less cb fuel t x) := by
  induction fuel with
  | zero => intros; trivial
  | succ fuel ih =>
    intro w x n t h
    rcases h.cases hl with ⟨e, rfl⟩ | ⟨q, nd, e, d, c, e1, _, rfl, e3, e4, _⟩
    · simp only [SL.forEachMutableIfLoopC, SWalk.loop, e]; exact ⟨rfl, h.holds⟩
    · have hd : w.sl.deref q = .ret nd := by simp [SL.deref, idx, e3]
      simp only [SL.forEachMutableIfLoopC, SWalk.loop, e1, GoM.bind_def, SCWorld.read, hd, e4]
      have hp := h.prog hl (cb t e.1)
      revert hp
      cases (cb t e.1).exec impl q w with
      | ok a w' =>
        cases (cb t e.1).spec impl.less x with
        | ok b x' =>
          rintro ⟨rfl, h'⟩
          obtain ⟨t', b⟩ := a
          cases b with
          | false => exact ⟨rfl, h'.holds⟩
          | true =>
            rcases h'.cases hl with ⟨_, e⟩ | ⟨q', nd', _, _, c', _, _, e2, e3', _, _, e6, nx, e7, h''⟩
            · cases e
            · cases e2
              have hn : w'.sl.nextAt (.node q) 0 = .ret nx := by simp [SL.nextAt, SL.deref, idx, e3', e7]
              simp only [Bool.true_eq_false, if_false, e6, GoM.bind_def, SCWorld.read, hn]
              exact ih t' h''
        | panic x' => exact fun h => h.elim
        | diverge => exact fun h => h.elim
      | panic w' =>
        cases (cb t e.1).spec impl.less x with
        | ok b x' => exact fun h => h.elim
        | panic x' => exact fun h => h
        | diverge => exact fun h => h.elim
      | diverge =>
        cases (cb t e.1).spec impl.less x with
        | ok b x' => exact fun h => h.elim
        | panic x' => exact fun h => h.elim
        | diverge => exact fun h => h

theorem SCInv.start {w : SCWorld K V} {s : SCSpec K V} {ids D : List Nat} (h : SCInv impl w s ids D) :
    ∃ n, w.sl.nextAt .head 0 = .ret n ∧ AtS impl w ⟨s, { start := s.map.head?.map (·.1) }⟩ n := by
  refine ⟨ids.head?, ?_, ids, D, h, h.base.head (fun _ h => h) h.base.inv.kvs⟩
  have := h.base.inv.iterate
  simp only [SL.iterate] at this
  simp only [SL.nextAt]
  cases hi : idx w.sl.headNext 0 with
  | ret n => rw [hi] at this; simp at this; rw [this]
  | panic => rw [hi] at this; simp at this
  | diverge => rw [hi] at this; simp at this

theorem SCInv.forEachMutableIfC (hl : impl.Lawful) {w : SCWorld K V} {s : SCSpec K V} {ids D : List Nat} (h : SCInv impl w s ids D)
    (cb : σ → K → SProg K V (σ × Bool)) (fuel : Nat) (t : σ) :
    FitsS (HoldsS impl) (HoldsS impl) (SL.forEachMutableIfC impl fuel cb t w) (SWalk.run impl.less fuel cb t s) := by
  obtain ⟨n, e, h'⟩ := h.start
  simp only [SL.forEachMutableIfC, GoM.bind_def, SCWorld.read, e, SWalk.run]
  exact h'.loop hl cb fuel t

/-! ## The four methods are instances of one -/

theorem SProg.exec_bind (q : Nat) (p : SProg K V α) (f : α → SProg K V β) : ∀ s : SCWorld K V,
    (p.bind f).exec impl q s = match p.exec impl q s with
      | .ok a s => (f a).exec impl q s
      | .panic s => .panic s
      | .diverge => .diverge := by
  induction p with
  | ret a => intro s; rfl
  | panic => intro s; rfl
  | hang => intro s; rfl
  | call op k ih =>
    intro s
    simp only [SProg.bind, SProg.exec]
    generalize s.step impl op = r
    obtain ⟨o, s'⟩ := r
    cases o with
    | key k => simp only [ih]
    | of o => cases o <;> simp only [ih]
  | load k ih => intro s; simp only [SProg.bind, SProg.exec, GoM.bind_def, ih]; cases SCWorld.read (fun sl => sl.readPtr q) s <;> rfl
  | store v k ih =>
    intro s; simp only [SProg.bind, SProg.exec, GoM.bind_def, GoM.modify_apply, ih]; cases SCWorld.read (fun sl => sl.setValue q v) s <;> rfl
  | save x k ih => intro s; simp only [SProg.bind, SProg.exec, GoM.bind_def, GoM.modify_apply, ih]

theorem SProg.spec_bind (less : K → K → Bool) (p : SProg K V α) (f : α → SProg K V β) : ∀ s : SWalk K V,
    (p.bind f).spec less s = match p.spec less s with
      | .ok a s => (f a).spec less s
      | .panic s => .panic s
      | .diverge => .diverge := by
  induction p with
  | ret a => intro s; rfl
  | panic => intro s; rfl
  | hang => intro s; rfl
  | call op k ih =>
    intro s
    simp only [SProg.bind, SProg.spec]
    cases (s.spec.step less op).1 with
    | key k => simp only [ih]
    | of o => cases o <;> simp only [ih]
  | load k ih => intro s; simp only [SProg.bind, SProg.spec]; cases s.entry less <;> simp only [ih]
  | store v k ih => intro s; simp only [SProg.bind, SProg.spec]; cases s.cur.place <;> simp only [ih]
  | save x k ih => intro s; simp only [SProg.bind, SProg.spec, ih]

theorem SL.forEachMutableLoopC_eq (cb : σ → K → SProg K V σ) (fuel : Nat) : ∀ (n : Option Nat) (t : σ),
    SL.forEachMutableLoopC impl cb fuel n t = SL.forEachMutableIfLoopC impl (SProg.goOn cb) fuel n t := by
  induction fuel with
  | zero => intros; rfl
  | succ fuel ih =>
    intro n t
    funext s
    cases n with
    | none => rfl
    | some q =>
      simp only [SL.forEachMutableLoopC, SL.forEachMutableIfLoopC, SProg.goOn, GoM.bind_def]
      cases SCWorld.read (fun sl => sl.deref q) s with
      | panic => rfl
      | diverge => rfl
      | ok nd s =>
        simp only [SProg.exec_bind]
        cases hy : (cb t nd.key).exec impl q s with
        | ok t s' => simp only [SProg.exec, ih]; rfl
        | panic => rfl
        | diverge => rfl

theorem SL.read_deref {w : SCWorld K V} {q : Nat} {nd : SLNode K V} {w' : SCWorld K V} (h : SCWorld.read (fun sl => sl.deref q) w = .ok nd w') :
    w' = w ∧ SCWorld.read (fun sl => sl.readPtr q) w = .ok nd.value w := by
  simp only [SCWorld.read, SL.readPtr] at *
  cases hd : w.sl.deref q with
  | ret n => rw [hd] at h; cases h; exact ⟨rfl, rfl⟩
  | panic => rw [hd] at h; cases h
  | diverge => rw [hd] at h; cases h

theorem SL.forEachIfLoopC_eq (cb : σ → K → V → SProg K V (σ × Bool)) (fuel : Nat) : ∀ (n : Option Nat) (t : σ),
    SL.forEachIfLoopC impl cb fuel n t = SL.forEachMutableIfLoopC impl (SProg.byValue cb) fuel n t := by
  induction fuel with
  | zero => intros; rfl
  | succ fuel ih =>
    intro n t
    funext s
    cases n with
    | none => rfl
    | some q =>
      simp only [SL.forEachIfLoopC, SL.forEachMutableIfLoopC, SProg.byValue, SProg.exec, GoM.bind_def, ih]
      cases h : SCWorld.read (fun sl => sl.deref q) s with
      | panic => rfl
      | diverge => rfl
      | ok nd s' =>
        obtain ⟨rfl, e⟩ := SL.read_deref h
        simp only [e]

theorem SL.forEachLoopC_eq (cb : σ → K → V → SProg K V σ) (fuel : Nat) : ∀ (n : Option Nat) (t : σ),
    SL.forEachLoopC impl cb fuel n t = SL.forEachMutableLoopC impl (SProg.byValue cb) fuel n t := by
  induction fuel with
  | zero => intros; rfl
  | succ fuel ih =>
    intro n t
    funext s
    cases n with
    | none => rfl
    | some q =>
      simp only [SL.forEachLoopC, SL.forEachMutableLoopC, SProg.byValue, SProg.exec, GoM.bind_def, ih]
      cases h : SCWorld.read (fun sl => sl.deref q) s with
      | panic => rfl
      | diverge => rfl
      | ok nd s' =>
        obtain ⟨rfl, e⟩ := SL.read_deref h
        simp only [e]

end Stl4go
