import Verif.Spec.SkipListNested
import Verif.Proofs.SkipListWalk
/-! # SkipList: loops inside one another -/
namespace Stl4go
variable {K V α β σ : Type} {impl : Nat → SLImpl K}

/-- The list with the loop variables as iterators with odd numbers. -/
def SCWorld.hide (w : SCWorld K V) (hid : Nat → Option Nat) : SCWorld K V :=
  { w with curs := fun x => if x % 2 = 0 then w.curs (x / 2) else ⟨hid (x / 2), none⟩ }

theorem SCWorld.hide_even (w : SCWorld K V) (hid : Nat → Option Nat) (c : Nat) : (w.hide hid).curs (2 * c) = w.curs c := by
  simp [SCWorld.hide]

theorem SCWorld.hide_odd (w : SCWorld K V) (hid : Nat → Option Nat) (d : Nat) : (w.hide hid).curs (2 * d + 1) = ⟨hid d, none⟩ := by
  have h1 : (2 * d + 1) % 2 = 1 := by omega
  have h2 : (2 * d + 1) / 2 = d := by omega
  simp [SCWorld.hide, h1, h2]

theorem SCWorld.hide_put (w : SCWorld K V) (hid : Nat → Option Nat) (c : Nat) (it : SLIter) : (w.hide hid).put (2 * c) it = (w.put c it).hide hid := by
  simp only [SCWorld.put, SCWorld.hide]
  congr 1
  funext x
  by_cases h : x % 2 = 0
  · by_cases h2 : x / 2 = c
    · have : x = 2 * c := by omega
      simp [this]
    · have : x ≠ 2 * c := by omega
      simp [this, h, h2]
  · have : x ≠ 2 * c := by omega
    simp [this, h]

theorem SCWorld.hide_seen {γ : Type} (w : SCWorld K V) (hid : Nat → Option Nat) (r : Outcome γ) (f g : γ → SCObs K V × SCWorld K V)
    (h : ∀ a, f a = ((g a).1, (g a).2.hide hid)) : (w.hide hid).seen r f = ((w.seen r g).1, (w.seen r g).2.hide hid) := by
  cases r <;> simp [SCWorld.seen, h]

/-- A call does the same in both. -/
theorem SCWorld.step_hide (im : SLImpl K) (w : SCWorld K V) (hid : Nat → Option Nat) (op : SCOp K V) :
    (w.hide hid).step im op.outer = ((w.step im op).1, (w.step im op).2.hide hid) := by
  cases op <;> simp only [SCOp.outer, SCWorld.step, SCWorld.hide_even]
  all_goals first
    | exact SCWorld.hide_seen w hid _ _ _ (fun a => rfl)
    | exact SCWorld.hide_seen w hid _ _ _ (fun a => by simp only [SCWorld.hide_put])

theorem SNWorld.set_same (w : SNWorld K V) (i : Nat) (x : SCWorld K V) : (w.set i x).lists i = x := by simp [SNWorld.set]
theorem SNWorld.set_other (w : SNWorld K V) {i j : Nat} (x : SCWorld K V) (h : j ≠ i) : (w.set i x).lists j = w.lists j := by simp [SNWorld.set, h]
theorem SNSpec.set_same (s : SNSpec K V) (i : Nat) (x : SCSpec K V) : (s.set i x).maps i = x := by simp [SNSpec.set]
theorem SNSpec.set_other (s : SNSpec K V) {i j : Nat} (x : SCSpec K V) (h : j ≠ i) : (s.set i x).maps j = s.maps j := by simp [SNSpec.set, h]

/-- The lists and the loop variables are what the specification says. -/
def NInv (impl : Nat → SLImpl K) (w : SNWorld K V) (hid : Nat → Nat → Option Nat) (s : SNSpec K V) : Prop :=
  ∀ i, ∃ ids D, SCInv (impl i) ((w.lists i).hide (hid i)) (s.maps i) ids D

/-- A run inside `d` loops ended as the specification says. -/
def SettlesN (impl : Nat → SLImpl K) (d : Nat) (hid : Nat → Nat → Option Nat) : Res (SNWorld K V) α → Res (SNSpec K V) α → Prop
  | .ok a w, .ok b s => a = b ∧ ∃ hid', (∀ i, ∀ x < d, hid' i x = hid i x) ∧ NInv impl w hid' s
  | .panic w, .panic s => ∃ hid', NInv impl w hid' s
  | .diverge, .diverge => True
  | _, _ => False

theorem NInv.set {w : SNWorld K V} {hid hid' : Nat → Nat → Option Nat} {s : SNSpec K V} (h : NInv impl w hid s) (i : Nat) {x : SCWorld K V} {y : SCSpec K V}
    {ids D : List Nat} (hx : SCInv (impl i) (x.hide (hid' i)) y ids D) (hh : ∀ j, j ≠ i → hid' j = hid j) : NInv impl (w.set i x) hid' (s.set i y) := by
  intro j
  by_cases hj : j = i
  · subst hj; rw [SNWorld.set_same, SNSpec.set_same]; exact ⟨ids, D, hx⟩
  · rw [SNWorld.set_other _ _ hj, SNSpec.set_other _ _ hj, hh j hj]; exact h j

theorem NInv.call (hl : ∀ i, (impl i).Lawful) {w : SNWorld K V} {hid : Nat → Nat → Option Nat} {s : SNSpec K V} (h : NInv impl w hid s) (i : Nat) (op : SCOp K V) :
    ((w.lists i).step (impl i) op).1 = ((s.maps i).step (impl i).less op.outer).1 ∧
      NInv impl (w.set i ((w.lists i).step (impl i) op).2) hid (s.set i ((s.maps i).step (impl i).less op.outer).2) := by
  obtain ⟨ids, D, I⟩ := h i
  obtain ⟨a, ids', D', _, b, _⟩ := I.step (hl i) op.outer
  rw [SCWorld.step_hide] at a b
  exact ⟨a, h.set i b (fun _ _ => rfl)⟩

/-- `n` as the loop variable of loop `d` over list `i`. -/
def setHidN (hid : Nat → Nat → Option Nat) (i d : Nat) (n : Option Nat) : Nat → Nat → Option Nat :=
  fun j x => if j = i ∧ x = d then n else hid j x

theorem SCWorld.hide_setHidN (w : SCWorld K V) (hid : Nat → Nat → Option Nat) (i d : Nat) (n : Option Nat) :
    w.hide (setHidN hid i d n i) = (w.hide (hid i)).put (2 * d + 1) ⟨n, none⟩ := by
  simp only [SCWorld.put, SCWorld.hide]
  congr 1
  funext x
  by_cases h : x = 2 * d + 1
  · subst h
    have h1 : (2 * d + 1) % 2 = 1 := by omega
    have h2 : (2 * d + 1) / 2 = d := by omega
    simp [h1, h2, setHidN]
  · simp only [h, if_false, setHidN]
    by_cases h2 : x % 2 = 0
    · simp [h2]
    · have : x / 2 ≠ d := by omega
      simp [h2, this]

theorem NInv.put {w : SNWorld K V} {hid : Nat → Nat → Option Nat} {s : SNSpec K V} (h : NInv impl w hid s) {i d : Nat} {ids D : List Nat}
    (I : SCInv (impl i) ((w.lists i).hide (hid i)) (s.maps i) ids D) {c : SCur K} {n : Option Nat}
    (hp : PathAt (w.lists i).sl ids D c.gone c.start n) (hs : c.stop = none) :
    NInv impl w (setHidN hid i d n) (s.set i ((s.maps i).put (2 * d + 1) c)) := by
  have e : w = w.set i (w.lists i) := by
    obtain ⟨f⟩ := w
    simp only [SNWorld.set, SNWorld.mk.injEq]
    funext j
    by_cases hj : j = i <;> simp [hj]
  rw [e]
  refine h.set i (ids := ids) (D := D) ?_ (fun j hj => by funext x; simp [setHidN, hj])
  rw [SCWorld.hide_setHidN]
  exact I.put _ ⟨hp, by rw [hs]; trivial⟩

/-- What the loop is on. -/
theorem NInv.cases (hl : ∀ i, (impl i).Lawful) {w : SNWorld K V} {hid : Nat → Nat → Option Nat} {s : SNSpec K V} (h : NInv impl w hid s) (i d : Nat) :
    (((s.maps i).curs (2 * d + 1)).place.bind ((s.maps i).entry (impl i).less) = none ∧ hid i d = none) ∨
    (∃ q nd e c nx, ((s.maps i).curs (2 * d + 1)).place.bind ((s.maps i).entry (impl i).less) = some e ∧ hid i d = some q ∧
      (w.lists i).sl.nodes[q]? = some nd ∧ nd.key = e.1 ∧ nd.value = e.2 ∧ nd.next[0]? = some nx ∧
      ((s.maps i).curs (2 * d + 1)).next (impl i).less (s.maps i).map = some c ∧
      NInv impl w (setHidN hid i d nx) (s.set i ((s.maps i).put (2 * d + 1) c))) := by
  obtain ⟨ids, D, I⟩ := h i
  have hc := I.curs (2 * d + 1)
  rw [SCWorld.hide_odd] at hc
  obtain ⟨hp, hst⟩ := hc
  simp only at hp hst
  have hstop : ((s.maps i).curs (2 * d + 1)).stop = none := by
    cases e : ((s.maps i).curs (2 * d + 1)).stop with
    | none => rfl
    | some _ => rw [e] at hst; exact hst.elim
  rcases I.deref (hl i) hp.place with ⟨e1, e2⟩ | ⟨d', q, e, nd, e1, e2, e3, e4, e5, e6⟩
  · exact .inl ⟨by rw [e1]; rfl, e2⟩
  · rcases I.next (hl i) hp with ⟨_, _, n3⟩ | ⟨q', nd', nx, c, h1, h2, h3, h4, h5, h6⟩
    · rw [e2] at n3; cases n3
    · rw [e2] at h1
      cases h1
      rw [e4] at h2
      cases h2
      exact .inr ⟨q, nd, e, c, nx, by rw [e1]; exact e3, e2, e4, e5, e6, h3, h4, h.put I h5 (h6.trans hstop)⟩

theorem NInv.start {w : SNWorld K V} {hid : Nat → Nat → Option Nat} {s : SNSpec K V} (h : NInv impl w hid s) (i d : Nat) :
    ∃ n, (w.lists i).sl.nextAt .head 0 = .ret n ∧
      NInv impl w (setHidN hid i d n) (s.set i ((s.maps i).put (2 * d + 1) { start := (s.maps i).map.head?.map (·.1) })) := by
  obtain ⟨ids, D, I⟩ := h i
  obtain ⟨n, e, _⟩ := I.start
  have := I.base.inv.iterate
  have hn : n = ids.head? := by
    simp only [SL.iterate] at this
    simp only [SL.nextAt] at e
    cases hi : idx ((w.lists i).hide (hid i)).sl.headNext 0 with
    | ret n => rw [hi] at this e; simp at this e; rw [← e, this]
    | panic => rw [hi] at this; simp at this
    | diverge => rw [hi] at this; simp at this
  refine ⟨n, e, h.put I ?_ rfl⟩
  rw [hn]
  exact I.base.head (fun _ h => h) I.base.inv.kvs

theorem SettlesN.of_eq {d : Nat} {hid hid0 : Nat → Nat → Option Nat} {r : Res (SNWorld K V) α} {s : Res (SNSpec K V) α} (h : SettlesN impl d hid r s)
    (he : ∀ i, ∀ x < d, hid i x = hid0 i x) : SettlesN impl d hid0 r s := by
  cases r <;> cases s <;> first | exact h.elim | exact h | skip
  obtain ⟨h1, hid', h2, h3⟩ := h
  exact ⟨h1, hid', fun i x hx => (h2 i x hx).trans (he i x hx), h3⟩

theorem SettlesN.bind {d : Nat} {hid : Nat → Nat → Option Nat} {x : GoM (SNWorld K V) α} {w : SNWorld K V} {s : Res (SNSpec K V) α}
    (h : SettlesN impl d hid (x w) s) {f : α → GoM (SNWorld K V) β} {g : α → SNSpec K V → Res (SNSpec K V) β}
    (hf : ∀ a w hid' s, NInv impl w hid' s → SettlesN impl d hid' (f a w) (g a s)) : SettlesN impl d hid ((x >>= f) w) (s.andThen g) := by
  rw [GoM.bind_def]
  revert h
  generalize x w = r
  intro h
  cases r <;> cases s <;> first | exact h.elim | exact h | skip
  obtain ⟨rfl, hid', h2, h3⟩ := h
  exact (hf _ _ hid' _ h3).of_eq h2

/-- Both loops with a condition: the callback gets the node too. -/
def eachN (i : Nat) (body : σ → Nat → K → V → GoM (SNWorld K V) (σ × Bool)) : (fuel : Nat) → Option Nat → σ → GoM (SNWorld K V) σ
  | 0, _, _ => GoM.diverge
  | _ + 1, none, t => pure t
  | fuel + 1, some e, t => do
    let n ← SNWorld.read i (fun sl => sl.deref e)
    let r ← body t e n.key n.value
    if r.2 = false then pure r.1
    else do
      let e ← SNWorld.read i (fun sl => sl.nextAt (.node e) 0)
      eachN i body fuel e r.1

theorem forEachIfLoopN_eq (i : Nat) (cb : σ → K → V → GoM (SNWorld K V) (σ × Bool)) (fuel : Nat) : ∀ n t,
    SL.forEachIfLoopN i cb fuel n t = eachN i (fun t _ k v => cb t k v) fuel n t := by
  induction fuel with
  | zero => intros; rfl
  | succ fuel ih => intro n t; cases n <;> simp only [SL.forEachIfLoopN, eachN, ih]

theorem forEachMutableIfLoopN_eq (p i : Nat) (cb : σ → K → GoM (SNWorld K V) (σ × Bool)) (fuel : Nat) : ∀ n t,
    SL.forEachMutableIfLoopN p i cb fuel n t = eachN i (fun t e k _ => do SNWorld.keepPtr p i e; cb t k) fuel n t := by
  induction fuel with
  | zero => intros; rfl
  | succ fuel ih =>
    intro n t
    cases n with
    | none => rfl
    | some e =>
      simp only [SL.forEachMutableIfLoopN, eachN, ih]
      funext w
      simp only [GoM.bind_def]
      cases SNWorld.read i (fun sl => sl.deref e) w <;> rfl

/-- The loop does what the iterator does. -/
theorem eachLoopN_settles (hl : ∀ i, (impl i).Lawful) (d i : Nat) (body : σ → Nat → K → V → GoM (SNWorld K V) (σ × Bool))
    (cb : σ → K → V → SNSpec K V → Res (SNSpec K V) (σ × Bool))
    (hcb : ∀ t q k v w hid s, hid i d = some q → NInv impl w hid s → SettlesN impl (d + 1) hid (body t q k v w) (cb t k v s)) (fuel : Nat) :
    ∀ (t : σ) (w : SNWorld K V) (hid : Nat → Nat → Option Nat) (s : SNSpec K V), NInv impl w hid s →
      SettlesN impl d hid (eachN i body fuel (hid i d) t w) (SNSpec.eachLoop (fun i => (impl i).less) i (2 * d + 1) cb fuel t s) := by
  induction fuel with
  | zero => intros; trivial
  | succ fuel ih =>
    intro t w hid s hi
    rcases hi.cases hl i d with ⟨e1, e2⟩ | ⟨q, nd, e, c, nx, e1, e2, e3, e4, e5, _⟩
    · simp only [e2, eachN, SNSpec.eachLoop, e1]; exact ⟨rfl, hid, fun _ _ _ => rfl, hi⟩
    · have hd : (w.lists i).sl.deref q = .ret nd := by simp [SL.deref, idx, e3]
      simp only [e2, eachN, SNSpec.eachLoop, e1, GoM.bind_def, SNWorld.read, hd, e4, e5]
      have hb := hcb t q e.1 e.2 w hid s e2 hi
      revert hb
      cases body t q e.1 e.2 w with
      | panic w' =>
        cases cb t e.1 e.2 s <;> intro hb <;> first | exact hb.elim | exact hb
      | diverge =>
        cases cb t e.1 e.2 s <;> intro hb <;> first | exact hb.elim | exact hb
      | ok r w' =>
        cases cb t e.1 e.2 s with
        | panic => exact fun hb => hb.elim
        | diverge => exact fun hb => hb.elim
        | ok r' s' =>
          rintro ⟨rfl, hid', b1, b2⟩
          obtain ⟨t', b⟩ := r
          cases b with
          | false => exact ⟨rfl, hid', fun i x hx => b1 i x (by omega), b2⟩
          | true =>
            have hd' : hid' i d = some q := (b1 i d (by omega)).trans e2
            rcases b2.cases hl i d with ⟨_, f⟩ | ⟨q', nd', e', c', nx', f1, f2, f3, _, _, f6, f7, f8⟩
            · rw [hd'] at f; cases f
            · rw [hd'] at f2
              cases f2
              have hn : (w'.lists i).sl.nextAt (.node q) 0 = .ret nx' := by simp [SL.nextAt, SL.deref, idx, f3, f6]
              simp only [Bool.true_eq_false, if_false, GoM.bind_def, SNWorld.read, hn, f7]
              have := ih t' w' _ _ f8
              have e0 : setHidN hid' i d nx' i d = nx' := by simp [setHidN]
              rw [e0] at this
              refine this.of_eq fun j x hx => ?_
              simp only [setHidN, show x ≠ d by omega, and_false, if_false]
              exact b1 j x (by omega)

theorem eachN_settles (hl : ∀ i, (impl i).Lawful) (d i : Nat) (body : σ → Nat → K → V → GoM (SNWorld K V) (σ × Bool))
    (cb : σ → K → V → SNSpec K V → Res (SNSpec K V) (σ × Bool))
    (hcb : ∀ t q k v w hid s, hid i d = some q → NInv impl w hid s → SettlesN impl (d + 1) hid (body t q k v w) (cb t k v s)) (fuel : Nat)
    (t : σ) (w : SNWorld K V) (hid : Nat → Nat → Option Nat) (s : SNSpec K V) (hi : NInv impl w hid s) :
    SettlesN impl d hid ((do let e ← SNWorld.read i (fun sl => sl.nextAt .head 0); eachN i body fuel e t : GoM (SNWorld K V) σ) w)
      (s.each (fun i => (impl i).less) i (2 * d + 1) cb fuel t) := by
  obtain ⟨n, e, h⟩ := hi.start i d
  simp only [GoM.bind_def, SNWorld.read, e, SNSpec.each]
  have := eachLoopN_settles hl d i body cb hcb fuel t w _ _ h
  have e0 : setHidN hid i d n i d = n := by simp [setHidN]
  rw [e0] at this
  refine this.of_eq fun j x hx => ?_
  simp only [setHidN, show x ≠ d by omega, and_false, if_false]

theorem NInv.keepPtr {w : SNWorld K V} {hid : Nat → Nat → Option Nat} {s : SNSpec K V} (h : NInv impl w hid s) {d i q : Nat} (hq : hid i d = some q) (p : Nat) :
    NInv impl (w.set i ((w.lists i).point p (some q))) hid (s.set i ((s.maps i).point p ((s.maps i).curs (2 * d + 1)).place)) := by
  obtain ⟨ids, D, I⟩ := h i
  have hc := I.curs (2 * d + 1)
  rw [SCWorld.hide_odd, hq] at hc
  exact h.set i (I.point p hc.1.place) (fun _ _ => rfl)

theorem SNProg.exec_settles (hl : ∀ i, (impl i).Lawful) (fuel : Nat) {α : Type} (p : SNProg K V α) :
    ∀ (d : Nat) (w : SNWorld K V) (hid : Nat → Nat → Option Nat) (s : SNSpec K V), NInv impl w hid s →
      SettlesN impl d hid (p.exec impl fuel w) (p.spec (fun i => (impl i).less) fuel d s) := by
  induction p with
  | ret a => intro d w hid s hi; exact ⟨rfl, hid, fun _ _ _ => rfl, hi⟩
  | panic => intro d w hid s hi; exact ⟨hid, hi⟩
  | hang => intro d w hid s hi; trivial
  | call i op k ih =>
    intro d w hid s hi
    obtain ⟨e, h'⟩ := hi.call hl i op
    have hh := SCSpec.step_ne_hung (impl i).less (s.maps i) op.outer
    simp only [SNProg.exec, SNProg.spec, GoM.bind_def, SNWorld.call]
    rw [← e] at hh ⊢
    revert hh h'
    generalize (w.lists i).step (impl i) op = r
    obtain ⟨o, x⟩ := r
    intro h' hh
    cases o with
    | key k => exact ih _ d _ hid _ h'
    | of o => cases o <;> first | exact ⟨hid, h'⟩ | exact absurd rfl hh | exact ih _ d _ hid _ h'
  | each i cb t k ih1 ih2 =>
    intro d w hid s hi
    simp only [SNProg.exec, SNProg.spec, SL.forEachIfN, forEachIfLoopN_eq]
    exact (eachN_settles hl d i _ _ (fun t q k v w hid s _ h => ih1 t k v (d + 1) w hid s h) fuel t w hid s hi).bind
      (fun t w hid' s h => ih2 t d w hid' s h)
  | eachPtr p i cb t k ih1 ih2 =>
    intro d w hid s hi
    simp only [SNProg.exec, SNProg.spec, SL.forEachMutableIfN, forEachMutableIfLoopN_eq]
    exact (eachN_settles hl d i _ _ (fun t q k v w hid s hq h => ih1 t k (d + 1) _ hid _ (h.keepPtr hq p)) fuel t w hid s hi).bind
      (fun t w hid' s h => ih2 t d w hid' s h)

end Stl4go
