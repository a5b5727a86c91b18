import Verif.Proofs.SkipListCallback
import Verif.Proofs.SkipListSet
import Verif.Proofs.SkipListWalk
import Verif.Spec.SkipListSetCallback
/-! # Sets with iterators and callbacks: each method of the set is a program over the map's methods -/
namespace Stl4go
variable {K α β σ : Type} {impl : SLImpl K} {ids : List Nat} {m : List (K × Unit)}

/-! ## The methods of the set -/

theorem SMap.step_ne_panicked (less : K → K → Bool) (m : List (K × Unit)) (op : SMOp K Unit) : (SMap.step less m op).1 ≠ .panicked := by
  cases op <;> simp [SMap.step]

/-- A call of a method of the map. -/
theorem SLInv.callMap (hl : impl.Lawful) {w : SCWorld K Unit} (h : SLInv impl.less w.sl ids m) (q rnd : Nat) (op : SMOp K Unit)
    (k : SCObs K Unit → SProg K Unit α) : ∃ s' ids', SL.exec impl rnd w.sl op = .ret (s', (SMap.step impl.less m op).1) ∧
      SLInv impl.less s' ids' (SMap.step impl.less m op).2 ∧
      SProg.exec impl q (.call (.map rnd op) k) w = (k (.of (SMap.step impl.less m op).1)).exec impl q { w with sl := s' } := by
  obtain ⟨s', ids', a1, a2⟩ := h.exec hl rnd op
  refine ⟨s', ids', a1, a2, ?_⟩
  simp only [SProg.exec, SCWorld.step, a1, SCWorld.seen]
  have h1 := SMap.step_ne_panicked impl.less m op
  have h2 := SMap.step_ne_hung impl.less m op
  revert h1 h2
  cases (SMap.step impl.less m op).1 <;> intro h1 h2 <;> first | rfl | exact absurd rfl h1 | exact absurd rfl h2

theorem SL.exec_insert {s s' : SL K Unit} {rnd : Nat} {k : K} {o : SMObs K Unit} (h : SL.exec impl rnd s (.insert k ()) = .ret (s', o)) :
    SL.insert impl rnd s k () = .ret s' := by
  simp only [SL.exec] at h
  cases hx : SL.insert impl rnd s k () with
  | ret y => rw [hx] at h; simp at h; rw [h.1]
  | panic => rw [hx] at h; cases h
  | diverge => rw [hx] at h; cases h

theorem SL.exec_remove {s s' : SL K Unit} {rnd : Nat} {k : K} {b : Bool} (h : SL.exec impl rnd s (.remove k) = .ret (s', .flag b)) :
    SL.remove impl s k = .ret (s', b) := by
  simp only [SL.exec] at h
  cases hx : SL.remove impl s k with
  | ret y => rw [hx] at h; simp at h; rw [← h.1, ← h.2]
  | panic => rw [hx] at h; cases h
  | diverge => rw [hx] at h; cases h

/-- A method that only reads the map. -/
theorem SL.exec_reads {s s' : SL K Unit} {rnd : Nat} {op : SMOp K Unit} {o : SMObs K Unit} (h : SL.exec impl rnd s op = .ret (s', o))
    (hop : match op with | .insert _ _ | .remove _ | .update _ _ | .clear => False | _ => True) : s' = s := by
  cases op with
  | insert => exact hop.elim
  | remove => exact hop.elim
  | update => exact hop.elim
  | clear => exact hop.elim
  | find k =>
    simp only [SL.exec] at h
    cases hx : SL.find impl s k with
    | ret p =>
      rw [hx] at h
      cases p with
      | none => simp at h; exact h.1.symm
      | some p => cases hy : s.readPtr p <;> simp [hy] at h; exact h.1.symm
    | panic => rw [hx] at h; cases h
    | diverge => rw [hx] at h; cases h
  | has k => simp only [SL.exec] at h; cases hx : SL.has impl s k <;> simp [hx] at h; exact h.1.symm
  | len => simp only [SL.exec] at h; simp at h; exact h.1.symm
  | isEmpty => simp only [SL.exec] at h; simp at h; exact h.1.symm
  | iterate =>
    simp only [SL.exec] at h
    cases hx : SL.iterate s with
    | ret it => cases hy : s.observeIter it <;> simp [hx, hy] at h; exact h.1.symm
    | panic => rw [hx] at h; cases h
    | diverge => rw [hx] at h; cases h
  | lowerBound k =>
    simp only [SL.exec] at h
    cases hx : SL.lowerBoundIter impl s k with
    | ret it => cases hy : s.observeIter it <;> simp [hx, hy] at h; exact h.1.symm
    | panic => rw [hx] at h; cases h
    | diverge => rw [hx] at h; cases h
  | upperBound k =>
    simp only [SL.exec] at h
    cases hx : SL.upperBoundIter impl s k with
    | ret it => cases hy : s.observeIter it <;> simp [hx, hy] at h; exact h.1.symm
    | panic => rw [hx] at h; cases h
    | diverge => rw [hx] at h; cases h

/-- `InsertN`. -/
theorem SLInv.progInsertAll (hl : impl.Lawful) (q : Nat) (ks : List (Nat × K)) : ∀ {w : SCWorld K Unit} {ids : List Nat} {m : List (K × Unit)} (n : Int),
    SLInv impl.less w.sl ids m → ∃ s', SLSet.insertNLoop impl ks w.sl = .ret s' ∧
      (SSOp.insertAll ks n).exec impl q w = .ok (n + (SSet.addN impl.less (ks.map (·.2)) (m.map (·.1))).2) { w with sl := s' } := by
  induction ks with
  | nil => intro w ids m n h; exact ⟨w.sl, rfl, by simp [SSOp.insertAll, SProg.exec, SSet.addN]⟩
  | cons x ks ih =>
    intro w ids m n h
    obtain ⟨rnd, k⟩ := x
    obtain ⟨s0, i0, a1, a2, a3⟩ := h.callMap hl q 0 (.has k)
      (fun o => .call (.map rnd (.insert k ())) (fun _ => SSOp.insertAll ks (if o.truth then n else n + 1)))
    have e0 : s0 = w.sl := SL.exec_reads a1 trivial
    subst e0
    obtain ⟨s1, i1, b1, b2, b3⟩ := h.callMap hl q rnd (.insert k ())
      (fun _ => SSOp.insertAll ks (if (SCObs.of (K := K) (SMap.step impl.less m (.has k)).1).truth then n else n + 1))
    obtain ⟨s2, c1, c2⟩ := ih (w := { w with sl := s1 }) (if (SCObs.of (K := K) (SMap.step impl.less m (.has k)).1).truth then n else n + 1) b2
    obtain ⟨s', _, d1, _⟩ := h.set_insert hl rnd k
    have e1 : SLSet.insert impl rnd w.sl k = .ret (s1, !SSet.mem impl.less k (m.map (·.1))) := by
      rw [d1]
      simp only [SLSet.insert, SL.exec_insert b1, Outcome.ret_bind, Outcome.pure_eq] at d1
      injection d1 with d1; injection d1 with d1 _; rw [d1]
    refine ⟨s2, by simp [SLSet.insertNLoop, e1, c1], ?_⟩
    show SProg.exec impl q (.call (.map 0 (.has k)) _) w = _
    rw [a3, b3, c2]
    simp only [SMap.step, SCObs.truth, List.map_cons, SSet.addN, SSet.add_eq hl.weak h.sorted, ← SSet.mem_eq hl.weak h.sorted]
    congr 1
    cases SSet.mem impl.less k (m.map (·.1)) <;> simp
    omega

/-- `RemoveN`. -/
theorem SLInv.progRemoveAll (hl : impl.Lawful) (q : Nat) (ks : List K) : ∀ {w : SCWorld K Unit} {ids : List Nat} {m : List (K × Unit)} (n : Int),
    SLInv impl.less w.sl ids m → ∃ s', SLSet.removeNLoop impl ks w.sl = .ret s' ∧
      (SSOp.removeAll ks n).exec impl q w = .ok (n + (SSet.delN impl.less ks (m.map (·.1))).2) { w with sl := s' } := by
  induction ks with
  | nil => intro w ids m n h; exact ⟨w.sl, rfl, by simp [SSOp.removeAll, SProg.exec, SSet.delN]⟩
  | cons k ks ih =>
    intro w ids m n h
    obtain ⟨s1, i1, b1, b2, b3⟩ := h.callMap hl q 0 (.remove k)
      (fun o => SSOp.removeAll ks (if o.truth then n + 1 else n))
    obtain ⟨s2, c1, c2⟩ := ih (w := { w with sl := s1 }) (if (SCObs.of (K := K) (SMap.step impl.less m (.remove k)).1).truth then n + 1 else n) b2
    have e1 : SL.remove impl w.sl k = .ret (s1, _) := SL.exec_remove b1
    refine ⟨s2, by simp [SLSet.removeNLoop, SLSet.remove, e1, c1], ?_⟩
    show SProg.exec impl q (.call (.map 0 (.remove k)) _) w = _
    rw [b3, c2]
    simp only [SMap.step, SCObs.truth, SSet.delN, SSet.del_eq, ← SSet.mem_eq hl.weak h.sorted]
    congr 1
    cases SSet.mem impl.less k (m.map (·.1)) <;> simp
    omega

/-- Every method of the set is its program. -/
theorem SLInv.setProg (hl : impl.Lawful) {w : SCWorld K Unit} (h : SLInv impl.less w.sl ids m) (q : Nat) (op : SSOp K) :
    ∃ s', SLSet.exec impl w.sl op = .ret (s', (SSet.step impl.less (m.map (·.1)) op).1) ∧
      op.prog.exec impl q w = .ok (SSet.step impl.less (m.map (·.1)) op).1 { w with sl := s' } := by
  obtain ⟨s', _, _, x1, _, _⟩ := h.set_exec hl op
  refine ⟨s', x1, ?_⟩
  have hw := hl.weak
  have hm := SSet.mem_eq hw h.sorted
  cases op with
  | insert rnd k =>
    obtain ⟨s0, i0, a1, a2, a3⟩ := h.callMap hl q 0 (.has k) (fun o => .call (.map rnd (.insert k ())) (fun _ => .ret (SSObs.flag (K := K) (!o.truth))))
    have e0 : s0 = w.sl := SL.exec_reads a1 trivial
    subst e0
    obtain ⟨s1, i1, b1, b2, b3⟩ := h.callMap hl q rnd (.insert k ())
      (fun _ => .ret (SSObs.flag (K := K) (!(SCObs.of (K := K) (SMap.step impl.less m (.has k)).1).truth)))
    show SProg.exec impl q (.call (.map 0 (.has k)) _) w = _
    rw [a3, b3]
    simp only [SLSet.exec, SLSet.insert, SL.exec_insert b1, Outcome.ret_bind, Outcome.pure_eq] at x1
    injection x1 with x1; injection x1 with x1 _
    subst x1
    simp only [SProg.exec, SMap.step, SCObs.truth, SSet.step, hm]; rfl
  | insertN ks =>
    obtain ⟨s1, a1, a2⟩ := SLInv.progInsertAll hl q ks (w := w) 0 h
    simp only [SLSet.exec, SLSet.insertN, a1, Outcome.ret_bind, Outcome.pure_eq] at x1
    injection x1 with x1; injection x1 with x1 _
    subst x1
    simp only [SSOp.prog, SProg.exec_bind, a2, SProg.exec, SSet.step, Int.zero_add]; rfl
  | remove k =>
    obtain ⟨s1, i1, b1, b2, b3⟩ := h.callMap hl q 0 (.remove k) (fun o => .ret (SSObs.flag (K := K) o.truth))
    have e1 : SL.remove impl w.sl k = .ret (s1, _) := SL.exec_remove b1
    simp only [SLSet.exec, SLSet.remove, e1, Outcome.ret_bind, Outcome.pure_eq] at x1
    injection x1 with x1; injection x1 with x1 _
    subst x1
    show SProg.exec impl q (.call (.map 0 (.remove k)) _) w = _
    rw [b3]
    simp only [SProg.exec, SMap.step, SCObs.truth, SSet.step, hm]; rfl
  | removeN ks =>
    obtain ⟨s1, a1, a2⟩ := SLInv.progRemoveAll hl q ks (w := w) 0 h
    simp only [SLSet.exec, SLSet.removeN, a1, Outcome.ret_bind, Outcome.pure_eq] at x1
    injection x1 with x1; injection x1 with x1 _
    subst x1
    simp only [SSOp.prog, SProg.exec_bind, a2, SProg.exec, SSet.step, Int.zero_add]; rfl
  | clear =>
    obtain ⟨s1, i1, b1, b2, b3⟩ := h.callMap hl q 0 .clear (fun _ => .ret (SSObs.unit (K := K)))
    simp only [SLSet.exec, SLSet.clear] at x1
    simp only [SL.exec] at b1
    injection x1 with x1; injection x1 with x1 _
    injection b1 with b1; injection b1 with b1 _
    subst x1; subst b1
    exact b3
  | has k =>
    obtain ⟨s1, i1, b1, b2, b3⟩ := h.callMap hl q 0 (.has k) (fun o => .ret (SSObs.flag (K := K) o.truth))
    have e0 : s1 = w.sl := SL.exec_reads b1 trivial
    subst e0
    simp only [SLSet.exec, SLSet.has] at x1
    have e1 : s' = w.sl := by cases hx : SL.has impl w.sl k <;> simp [hx] at x1; exact x1.1.symm
    subst e1
    show SProg.exec impl q (.call (.map 0 (.has k)) _) w = _
    rw [b3]
    simp only [SProg.exec, SMap.step, SCObs.truth, SSet.step, hm]; rfl
  | len =>
    obtain ⟨s1, i1, b1, b2, b3⟩ := h.callMap hl q 0 .len (fun o => .ret (SSObs.num (K := K) o.number))
    have e0 : s1 = w.sl := SL.exec_reads b1 trivial
    subst e0
    simp only [SLSet.exec] at x1
    injection x1 with x1; injection x1 with x1 _
    subst x1
    show SProg.exec impl q (.call (.map 0 .len) _) w = _
    rw [b3]
    simp only [SProg.exec, SMap.step, SCObs.number, SSet.step, List.length_map]; rfl
  | isEmpty =>
    obtain ⟨s1, i1, b1, b2, b3⟩ := h.callMap hl q 0 .isEmpty (fun o => .ret (SSObs.flag (K := K) o.truth))
    have e0 : s1 = w.sl := SL.exec_reads b1 trivial
    subst e0
    simp only [SLSet.exec] at x1
    injection x1 with x1; injection x1 with x1 _
    subst x1
    show SProg.exec impl q (.call (.map 0 .isEmpty) _) w = _
    rw [b3]
    simp only [SProg.exec, SMap.step, SCObs.truth, SSet.step, List.isEmpty_map]; rfl
  | keys =>
    obtain ⟨s1, i1, b1, b2, b3⟩ := h.callMap hl q 0 .iterate (fun o => .ret (SSObs.list (K := K) o.keys))
    have e0 : s1 = w.sl := SL.exec_reads b1 trivial
    subst e0
    simp only [SLSet.exec] at x1
    have e1 : s' = w.sl := by cases hx : SLSet.keys w.sl <;> simp [hx] at x1; exact x1.1.symm
    subst e1
    show SProg.exec impl q (.call (.map 0 .iterate) _) w = _
    rw [b3]
    simp only [SProg.exec, SMap.step, SCObs.keys, SSet.step]; rfl
  | lowerBound k =>
    obtain ⟨s1, i1, b1, b2, b3⟩ := h.callMap hl q 0 (.lowerBound k) (fun o => .ret (SSObs.list (K := K) o.keys))
    have e0 : s1 = w.sl := SL.exec_reads b1 trivial
    subst e0
    simp only [SLSet.exec] at x1
    have e1 : s' = w.sl := by
      cases hx : SLSet.lowerBoundIter impl w.sl k with
      | ret it => cases hy : SLSet.observeIter w.sl it <;> simp [hx, hy] at x1; exact x1.1.symm
      | panic => rw [hx] at x1; cases x1
      | diverge => rw [hx] at x1; cases x1
    subst e1
    show SProg.exec impl q (.call (.map 0 (.lowerBound k)) _) w = _
    rw [b3]
    simp only [SProg.exec, SMap.step, SCObs.keys, SSet.step, List.filter_map]; rfl
  | upperBound k =>
    obtain ⟨s1, i1, b1, b2, b3⟩ := h.callMap hl q 0 (.upperBound k) (fun o => .ret (SSObs.list (K := K) o.keys))
    have e0 : s1 = w.sl := SL.exec_reads b1 trivial
    subst e0
    simp only [SLSet.exec] at x1
    have e1 : s' = w.sl := by
      cases hx : SLSet.upperBoundIter impl w.sl k with
      | ret it => cases hy : SLSet.observeIter w.sl it <;> simp [hx, hy] at x1; exact x1.1.symm
      | panic => rw [hx] at x1; cases x1
      | diverge => rw [hx] at x1; cases x1
    subst e1
    show SProg.exec impl q (.call (.map 0 (.upperBound k)) _) w = _
    rw [b3]
    simp only [SProg.exec, SMap.step, SCObs.keys, SSet.step, List.filter_map]; rfl

/-- What a call shows, as the end of a program. -/
def SetObs.ending (r : SetObs K × SCWorld K Unit) : Res (SCWorld K Unit) (SetObs K) :=
  match r.1 with
  | .panicked => .panic r.2
  | .hung => .diverge
  | o => .ok o r.2

/-- Every call is its program. -/
theorem SLInv.callProg (hl : impl.Lawful) {w : SCWorld K Unit} (h : SLInv impl.less w.sl ids m) (q : Nat) (op : SetOp K) :
    op.prog.exec impl q w = SetObs.ending (w.kstep impl op) := by
  cases op with
  | set op =>
    obtain ⟨s', a1, a2⟩ := h.setProg hl q op
    simp only [SetOp.prog, SProg.exec_bind, a2, SCWorld.kstep, a1, SCWorld.kseen, SetObs.ending, SProg.exec]; rfl
  | lowerBound c k =>
    simp only [SetOp.prog, SProg.exec, SCWorld.step, SCWorld.kstep, show SLSet.lowerBoundIter impl w.sl k = SL.lowerBoundIter impl w.sl k from rfl]
    cases SL.lowerBoundIter impl w.sl k <;> rfl
  | upperBound c k =>
    simp only [SetOp.prog, SProg.exec, SCWorld.step, SCWorld.kstep, show SLSet.upperBoundIter impl w.sl k = SL.upperBoundIter impl w.sl k from rfl]
    cases SL.upperBoundIter impl w.sl k <;> rfl
  | findRange c a b =>
    simp only [SetOp.prog, SProg.exec, SCWorld.step, SCWorld.kstep, show SLSet.findRange impl w.sl a b = SL.findRange impl w.sl a b from rfl]
    cases SL.findRange impl w.sl a b <;> rfl
  | isNotEnd c => simp only [SetOp.prog, SProg.exec, SCWorld.step, SCWorld.kstep]; rfl
  | value c =>
    simp only [SetOp.prog, SProg.exec, SCWorld.step, SCWorld.kstep, show (w.curs c).setValue w.sl = (w.curs c).key w.sl from rfl]
    cases (w.curs c).key w.sl <;> rfl
  | next c =>
    simp only [SetOp.prog, SProg.exec, SCWorld.step, SCWorld.kstep, show (w.curs c).setMoveToNext w.sl = (w.curs c).moveToNext w.sl from rfl]
    cases (w.curs c).moveToNext w.sl <;> rfl

/-! ## Programs of calls only -/

def SProg.Straight {V : Type} : SProg K V α → Prop
  | .ret _ => True
  | .panic => True
  | .call _ k => ∀ o, (k o).Straight
  | _ => False

theorem SProg.Straight.bind {V : Type} (p : SProg K V α) (f : α → SProg K V β) (h : p.Straight) (hf : ∀ a, (f a).Straight) : (p.bind f).Straight := by
  induction p with
  | ret a => exact hf a
  | panic => trivial
  | hang => exact h.elim
  | call op k ih => exact fun o => ih o (h o)
  | load => exact h.elim
  | store => exact h.elim
  | save => exact h.elim

theorem SSOp.insertAll_straight (ks : List (Nat × K)) : ∀ n, (SSOp.insertAll ks n).Straight := by
  induction ks with
  | nil => intro n; trivial
  | cons x ks ih => intro n o o'; exact ih _

theorem SSOp.removeAll_straight (ks : List K) : ∀ n, (SSOp.removeAll ks n).Straight := by
  induction ks with
  | nil => intro n; trivial
  | cons x ks ih => intro n o; exact ih _

theorem SSOp.prog_straight (op : SSOp K) : op.prog.Straight := by
  cases op with
  | insert => exact fun _ _ => trivial
  | insertN ks => exact SProg.Straight.bind _ _ (SSOp.insertAll_straight ks 0) (fun _ => trivial)
  | removeN ks => exact SProg.Straight.bind _ _ (SSOp.removeAll_straight ks 0) (fun _ => trivial)
  | _ => exact fun _ => trivial

theorem SetOp.prog_straight (op : SetOp K) : op.prog.Straight := by
  cases op with
  | set op => exact SProg.Straight.bind _ _ (SSOp.prog_straight op) (fun _ => trivial)
  | value c => intro o; cases o <;> trivial
  | _ => exact fun _ => trivial

/-- Such a program is a history of calls. -/
theorem SProg.Straight.trace {V : Type} (hl : impl.Lawful) (q : Nat) (p : SProg K V α) (hp : p.Straight) :
    ∀ {w : SCWorld K V} {x : SWalk K V}, HoldsS impl w x → ∃ ops : List (SCOp K V), (∃ a y, p.exec impl q w = .ok a (w.run impl ops).2 ∧
      p.spec impl.less x = .ok a y ∧ y.spec = (x.spec.run impl.less ops).2) ∨ (∃ y, p.exec impl q w = .panic (w.run impl ops).2 ∧
      p.spec impl.less x = .panic y ∧ y.spec = (x.spec.run impl.less ops).2) := by
  induction p with
  | ret a => intro w x _; exact ⟨[], .inl ⟨a, x, rfl, rfl, rfl⟩⟩
  | panic => intro w x _; exact ⟨[], .inr ⟨x, rfl, rfl, rfl⟩⟩
  | hang => exact hp.elim
  | call op k ih =>
    intro w x h
    obtain ⟨ids, D, I⟩ := h
    obtain ⟨e, ids', D', _, I', _⟩ := I.step hl op
    have h' : HoldsS impl (w.step impl op).2 (x.op impl.less op) := ⟨ids', D', I'⟩
    have hh := SCSpec.step_ne_hung impl.less x.spec op
    rw [← e] at hh
    have hgo : ∀ o, (w.step impl op).1 = o → o ≠ .of .panicked → ∃ ops : List (SCOp K V),
        (∃ a y, (SProg.call op k).exec impl q w = .ok a (w.run impl ops).2 ∧
          (SProg.call op k).spec impl.less x = .ok a y ∧ y.spec = (x.spec.run impl.less ops).2) ∨
        (∃ y, (SProg.call op k).exec impl q w = .panic (w.run impl ops).2 ∧
          (SProg.call op k).spec impl.less x = .panic y ∧ y.spec = (x.spec.run impl.less ops).2) := by
      intro o ho hne
      rw [ho] at hh
      have e1 : (SProg.call op k).exec impl q w = (k o).exec impl q (w.step impl op).2 := by
        simp only [SProg.exec]
        rw [show w.step impl op = (o, (w.step impl op).2) from Prod.ext ho rfl]
        cases o with
        | key k => rfl
        | of o => cases o <;> first | rfl | exact absurd rfl hne | exact absurd rfl hh
      have e2 : (SProg.call op k).spec impl.less x = (k o).spec impl.less (x.op impl.less op) := by
        simp only [SProg.spec, ← e, ho]
      obtain ⟨ops, h1⟩ := ih o (hp o) h'
      exact ⟨op :: ops, by rw [e1, e2]; exact h1⟩
    cases ho : (w.step impl op).1 with
    | key k => exact hgo _ ho (by simp)
    | of o =>
      by_cases hne : o = .panicked
      · subst hne
        refine ⟨[op], .inr ⟨x.op impl.less op, ?_, ?_, rfl⟩⟩
        · simp only [SProg.exec, ho]; rfl
        · simp only [SProg.spec, ← e, ho]
      · exact hgo _ ho (by simpa using hne)
  | load => exact hp.elim
  | store => exact hp.elim
  | save => exact hp.elim

/-! ## Histories -/

/-- Both sides are where a history of calls of the map's methods leads. -/
def Reached (impl : SLImpl K) (w : SCWorld K Unit) (s : SCSpec K Unit) : Prop :=
  ∃ ops, w = (SCWorld.init.run impl ops).2 ∧ s = (SCSpec.init.run impl.less ops).2

theorem SCSpec.run_append' {V : Type} (less : K → K → Bool) (ops ops' : List (SCOp K V)) : ∀ s : SCSpec K V,
    (s.run less (ops ++ ops')).2 = ((s.run less ops).2.run less ops').2 := by
  induction ops with
  | nil => intro w; rfl
  | cons op ops ih => intro w; exact ih _

theorem SetObs.ending_ok {r : SetObs K × SCWorld K Unit} {o : SetObs K} {w : SCWorld K Unit} (h : SetObs.ending r = .ok o w) : r = (o, w) := by
  obtain ⟨o', w'⟩ := r
  cases o' <;> simp [SetObs.ending] at h <;> rw [← h.1, ← h.2]

theorem SetObs.ending_panic {r : SetObs K × SCWorld K Unit} {w : SCWorld K Unit} (h : SetObs.ending r = .panic w) : r = (.panicked, w) := by
  obtain ⟨o', w'⟩ := r
  cases o' <;> simp [SetObs.ending] at h; rw [← h]

theorem Reached.step (hl : impl.Lawful) {w : SCWorld K Unit} {s : SCSpec K Unit} (h : Reached impl w s) (op : SetOp K) :
    (w.kstep impl op).1 = (s.kstep impl.less op).1 ∧ Reached impl (w.kstep impl op).2 (s.kstep impl.less op).2 := by
  obtain ⟨h0, rfl, rfl⟩ := h
  obtain ⟨ids, D, I⟩ := SCInv.after hl h0
  have e := I.base.inv.callProg hl 0 op
  obtain ⟨ops, ⟨a, y, h1, h2, h3⟩ | ⟨y, h1, h2, h3⟩⟩ := SProg.Straight.trace hl 0 op.prog op.prog_straight
    (w := (SCWorld.init.run impl h0).2) (x := ⟨(SCSpec.init.run impl.less h0).2, {}⟩) ⟨ids, D, I⟩
  · rw [h1] at e
    rw [SetObs.ending_ok e.symm]
    simp only [SCSpec.kstep, h2]
    exact ⟨trivial, h0 ++ ops, by rw [SCWorld.run_append], by rw [SCSpec.run_append', h3]⟩
  · rw [h1] at e
    rw [SetObs.ending_panic e.symm]
    simp only [SCSpec.kstep, h2]
    exact ⟨trivial, h0 ++ ops, by rw [SCWorld.run_append], by rw [SCSpec.run_append', h3]⟩

theorem Reached.run (hl : impl.Lawful) (ops : List (SetOp K)) : ∀ {w : SCWorld K Unit} {s : SCSpec K Unit}, Reached impl w s →
    (w.krun impl ops).1 = (s.krun impl.less ops).1 ∧ Reached impl (w.krun impl ops).2 (s.krun impl.less ops).2 := by
  induction ops with
  | nil => intro w s h; exact ⟨rfl, h⟩
  | cons op ops ih =>
    intro w s h
    obtain ⟨h1, h2⟩ := h.step hl op
    obtain ⟨h3, h4⟩ := ih h2
    exact ⟨by simp only [SCWorld.krun, SCSpec.krun, h1, h3], h4⟩

theorem Reached.init : Reached impl (SCWorld.init : SCWorld K Unit) SCSpec.init := ⟨[], rfl, rfl⟩

/-- The steps need only the invariant, not a history from the start. -/
theorem HoldsS.kstep (hl : impl.Lawful) {w : SCWorld K Unit} {s : SCSpec K Unit} (h : HoldsS impl w ⟨s, {}⟩) (op : SetOp K) :
    (w.kstep impl op).1 = (s.kstep impl.less op).1 ∧ HoldsS impl (w.kstep impl op).2 ⟨(s.kstep impl.less op).2, {}⟩ := by
  obtain ⟨ids, D, I⟩ := id h
  have e := I.base.inv.callProg hl 0 op
  obtain ⟨ops, ⟨a, y, h1, h2, h3⟩ | ⟨y, h1, h2, h3⟩⟩ := SProg.Straight.trace hl 0 op.prog op.prog_straight h
  · rw [h1] at e
    rw [SetObs.ending_ok e.symm]
    simp only [SCSpec.kstep, h2]
    obtain ⟨_, ids', D', I'⟩ := SCInv.run hl ops I
    exact ⟨trivial, ids', D', by rw [h3]; exact I'⟩
  · rw [h1] at e
    rw [SetObs.ending_panic e.symm]
    simp only [SCSpec.kstep, h2]
    obtain ⟨_, ids', D', I'⟩ := SCInv.run hl ops I
    exact ⟨trivial, ids', D', by rw [h3]; exact I'⟩

theorem HoldsS.krun (hl : impl.Lawful) (ops : List (SetOp K)) : ∀ {w : SCWorld K Unit} {s : SCSpec K Unit}, HoldsS impl w ⟨s, {}⟩ →
    (w.krun impl ops).1 = (s.krun impl.less ops).1 := by
  induction ops with
  | nil => intro w s _; rfl
  | cons op ops ih =>
    intro w s h
    obtain ⟨h1, h2⟩ := h.kstep hl op
    simp only [SCWorld.krun, SCSpec.krun, h1, ih h2]

/-! ## Callbacks -/

theorem AtS.kprog (hl : impl.Lawful) {q : Nat} (p : SetProg K α) : ∀ {w : SCWorld K Unit} {x : SWalk K Unit}, AtS impl w x (some q) →
    FitsS (fun w x => AtS impl w x (some q)) (HoldsS impl) (p.exec impl w) (p.onMap.spec impl.less x) := by
  induction p with
  | ret a => intro w x h; exact ⟨rfl, h⟩
  | panic => intro w x h; exact h.holds
  | hang => intro w x h; trivial
  | call op k ih =>
    intro w x h
    obtain ⟨ids, D, I, _⟩ := id h
    have e := I.base.inv.callProg hl q op
    have hp := h.prog hl op.prog
    simp only [SetProg.exec, SetProg.onMap, SProg.spec_bind]
    rw [e] at hp
    revert hp
    generalize w.kstep impl op = r
    obtain ⟨o, w'⟩ := r
    cases op.prog.spec impl.less x with
    | ok b y =>
      cases o <;> simp only [SetObs.ending] <;> first
        | (rintro ⟨rfl, h'⟩; exact ih _ h')
        | exact fun h => h.elim
    | panic y =>
      cases o <;> simp only [SetObs.ending] <;> first
        | exact fun h => h
        | exact fun h => h.elim
    | diverge =>
      cases o <;> simp only [SetObs.ending] <;> first
        | exact fun h => h
        | exact fun h => h.elim

theorem AtS.kloop (hl : impl.Lawful) (cb : σ → K → SetProg K (σ × Bool)) (fuel : Nat) :
    ∀ {w : SCWorld K Unit} {x : SWalk K Unit} {n : Option Nat} (t : σ), AtS impl w x n →
    FitsS (HoldsS impl) (HoldsS impl) (SLSet.forEachIfLoopC impl cb fuel n t w) (SWalk.loop impl.less (fun t k => (cb t k).onMap) fuel t x) := by
  induction fuel with
  | zero => intros; trivial
  | succ fuel ih =>
    intro w x n t h
    rcases h.cases hl with ⟨e, rfl⟩ | ⟨q, nd, e, d, c, e1, _, rfl, e3, e4, _⟩
    · simp only [SLSet.forEachIfLoopC, SWalk.loop, e]; exact ⟨rfl, h.holds⟩
    · have hd : w.sl.deref q = .ret nd := by simp [SL.deref, idx, e3]
      simp only [SLSet.forEachIfLoopC, SWalk.loop, e1, GoM.bind_def, SCWorld.read, hd, e4]
      have hp := h.kprog hl (cb t e.1)
      revert hp
      cases (cb t e.1).exec impl w with
      | ok a w' =>
        cases (cb t e.1).onMap.spec impl.less x with
        | ok b x' =>
          rintro ⟨rfl, h'⟩
          obtain ⟨t', b⟩ := a
          cases b with
          | false => exact ⟨rfl, h'.holds⟩
          | true =>
            rcases h'.cases hl with ⟨_, e⟩ | ⟨q', nd', _, _, c', _, _, e2, e3', _, _, e6, nx, e7, h''⟩
            · cases e
            · cases e2
              have hn : w'.sl.nextAt (.node q) 0 = .ret nx := by simp [SL.nextAt, SL.deref, idx, e3', e7]
              simp only [Bool.true_eq_false, if_false, e6, GoM.bind_def, SCWorld.read, hn]
              exact ih t' h''
        | panic x' => exact fun h => h.elim
        | diverge => exact fun h => h.elim
      | panic w' =>
        cases (cb t e.1).onMap.spec impl.less x with
        | ok b x' => exact fun h => h.elim
        | panic x' => exact fun h => h
        | diverge => exact fun h => h.elim
      | diverge =>
        cases (cb t e.1).onMap.spec impl.less x with
        | ok b x' => exact fun h => h.elim
        | panic x' => exact fun h => h.elim
        | diverge => exact fun h => h

theorem SCInv.setForEachIf (hl : impl.Lawful) {w : SCWorld K Unit} {s : SCSpec K Unit} {ids D : List Nat} (h : SCInv impl w s ids D)
    (cb : σ → K → SetProg K (σ × Bool)) (fuel : Nat) (t : σ) :
    FitsS (HoldsS impl) (HoldsS impl) (SLSet.forEachIfC impl fuel cb t w) (SWalk.run impl.less fuel (fun t k => (cb t k).onMap) t s) := by
  obtain ⟨n, e, h'⟩ := h.start
  simp only [SLSet.forEachIfC, GoM.bind_def, SCWorld.read, e, SWalk.run]
  exact h'.kloop hl cb fuel t

theorem SetProg.exec_bind (p : SetProg K α) (f : α → SetProg K β) : ∀ w : SCWorld K Unit,
    (p.bind f).exec impl w = match p.exec impl w with
      | .ok a w => (f a).exec impl w
      | .panic w => .panic w
      | .diverge => .diverge := by
  induction p with
  | ret a => intro w; rfl
  | panic => intro w; rfl
  | hang => intro w; rfl
  | call op k ih =>
    intro w
    simp only [SetProg.bind, SetProg.exec]
    generalize w.kstep impl op = r
    obtain ⟨o, w'⟩ := r
    cases o <;> simp only [ih]

theorem SProg.bind_assoc' {V γ : Type} (p : SProg K V α) (f : α → SProg K V β) (g : β → SProg K V γ) :
    (p.bind f).bind g = p.bind (fun a => (f a).bind g) := by
  induction p with
  | ret a => rfl
  | panic => rfl
  | hang => rfl
  | call op k ih => simp only [SProg.bind, ih]
  | load k ih => simp only [SProg.bind, ih]
  | store v k ih => simp only [SProg.bind, ih]
  | save x k ih => simp only [SProg.bind, ih]

theorem SetProg.onMap_bind (p : SetProg K α) (f : α → SetProg K β) : (p.bind f).onMap = p.onMap.bind (fun a => (f a).onMap) := by
  induction p with
  | ret a => rfl
  | panic => rfl
  | hang => rfl
  | call op k ih => simp only [SetProg.bind, SetProg.onMap, SProg.bind_assoc', ih]

theorem SLSet.forEachLoopC_eq (cb : σ → K → SetProg K σ) (fuel : Nat) : ∀ (n : Option Nat) (t : σ),
    SLSet.forEachLoopC impl cb fuel n t = SLSet.forEachIfLoopC impl (fun t k => (cb t k).bind (fun t => .ret (t, true))) fuel n t := by
  induction fuel with
  | zero => intros; rfl
  | succ fuel ih =>
    intro n t
    funext s
    cases n with
    | none => rfl
    | some q =>
      simp only [SLSet.forEachLoopC, SLSet.forEachIfLoopC, GoM.bind_def]
      cases SCWorld.read (fun sl => sl.deref q) s with
      | panic => rfl
      | diverge => rfl
      | ok nd s =>
        simp only [SetProg.exec_bind]
        cases hy : (cb t nd.key).exec impl s with
        | ok t s' => simp only [SetProg.exec, ih]; rfl
        | panic => rfl
        | diverge => rfl

theorem SLSet.forEachC_eq (cb : σ → K → SetProg K σ) (fuel : Nat) (t : σ) :
    SLSet.forEachC impl fuel cb t = SLSet.forEachIfC impl fuel (fun t k => (cb t k).bind (fun t => .ret (t, true))) t := by
  simp only [SLSet.forEachC, SLSet.forEachIfC, SLSet.forEachLoopC_eq]

theorem SetProg.onMap_goOn (cb : σ → K → SetProg K σ) :
    (fun t k => ((cb t k).bind (fun t => .ret (t, true))).onMap) = SetProg.goOn cb := by
  funext t k; rw [SetProg.onMap_bind]; rfl

theorem SetProg.onMap_noting (cb : σ → K → SetProg K (σ × Bool)) :
    (fun t k => (SetProg.noting cb t k).onMap) = SProg.noting (fun t k => (cb t k).onMap) := by
  funext t k; simp only [SetProg.noting, SetProg.onMap_bind]; rfl

theorem SetProg.goOn_noting (cb : σ → K → SetProg K σ) : SetProg.goOn (SetProg.notingAll cb) = SProg.noting (SProg.goOn (fun t k => (cb t k).onMap)) := by
  funext t k
  simp only [SetProg.goOn, SProg.goOn, SetProg.notingAll, SProg.noting, SetProg.onMap_bind, SProg.bind_assoc']
  rfl

/-! ## Which calls the programs make -/

theorem SProg.Within.bind {V : Type} {pa ha : Bool} {ok : SCOp K V → Bool} (p : SProg K V α) (f : α → SProg K V β) (h : p.Within pa ha ok)
    (hf : ∀ a, (f a).Within pa ha ok) : (p.bind f).Within pa ha ok := by
  induction p with
  | ret a => exact hf a
  | panic => exact h
  | hang => exact h
  | call op k ih => exact ⟨h.1, fun o => ih o (h.2 o)⟩
  | load k ih => exact fun v => ih v (h v)
  | store v k ih => exact ih h
  | save x k ih => exact ih h

theorem SetProg.Within.onMap {pa ha : Bool} {ok : SetOp K → Bool} {ok' : SCOp K Unit → Bool} (hop : ∀ op, ok op = true → op.prog.Within pa ha ok')
    (p : SetProg K α) (h : p.Within pa ha ok) : p.onMap.Within pa ha ok' := by
  induction p with
  | ret a => trivial
  | panic => exact h
  | hang => exact h
  | call op k ih => exact SProg.Within.bind _ _ (hop op h.1) (fun o => ih o (h.2 o))

theorem SSOp.insertAll_within {pa ha : Bool} {ok : SCOp K Unit → Bool} (h1 : ∀ k, ok (.map 0 (.has k)) = true)
    (h2 : ∀ r k, ok (.map r (.insert k ())) = true) (ks : List (Nat × K)) : ∀ n, (SSOp.insertAll ks n).Within pa ha ok := by
  induction ks with
  | nil => intro n; trivial
  | cons x ks ih => intro n; exact ⟨h1 _, fun _ => ⟨h2 _ _, fun _ => ih _⟩⟩

theorem SSOp.removeAll_within {pa ha : Bool} {ok : SCOp K Unit → Bool} (ks : List K) : (∀ k ∈ ks, ok (.map 0 (.remove k)) = true) →
    ∀ n, (SSOp.removeAll ks n).Within pa ha ok := by
  induction ks with
  | nil => intro _ n; trivial
  | cons x ks ih => intro h n; exact ⟨h x (by simp), fun _ => ih (fun k hk => h k (by simp [hk])) _⟩

theorem SetOp.within_keeps {less : K → K → Bool} {q : K} (op : SetOp K) (h : (!op.removesKey less q) = true) :
    op.prog.Within true true (fun op => !op.removesKey less q) := by
  cases op with
  | set op =>
    refine SProg.Within.bind _ _ ?_ (fun _ => trivial)
    cases op with
    | insert => exact ⟨rfl, fun _ => ⟨rfl, fun _ => trivial⟩⟩
    | insertN ks => exact SProg.Within.bind _ _ (SSOp.insertAll_within (fun _ => rfl) (fun _ _ => rfl) ks 0) (fun _ => trivial)
    | remove k => exact ⟨h, fun _ => trivial⟩
    | removeN ks =>
      refine SProg.Within.bind _ _ (SSOp.removeAll_within ks (fun k hk => ?_) 0) (fun _ => trivial)
      simp only [SetOp.removesKey, Bool.not_eq_true', List.any_eq_false] at h
      simpa [SCOp.removesKey] using h k hk
    | clear => cases h
    | _ => exact ⟨rfl, fun _ => trivial⟩
  | value c => exact ⟨rfl, fun o => by cases o <;> trivial⟩
  | _ => exact ⟨rfl, fun _ => trivial⟩

theorem SetOp.within_noInsert (op : SetOp K) (h : (!op.isInsert) = true) : op.prog.Within true false (fun op => !op.isInsert) := by
  cases op with
  | set op =>
    refine SProg.Within.bind _ _ ?_ (fun _ => trivial)
    cases op with
    | insert => cases h
    | insertN ks => cases h
    | removeN ks => exact SProg.Within.bind _ _ (SSOp.removeAll_within ks (fun k hk => rfl) 0) (fun _ => trivial)
    | _ => exact ⟨rfl, fun _ => trivial⟩
  | value c => exact ⟨rfl, fun o => by cases o <;> trivial⟩
  | _ => exact ⟨rfl, fun _ => trivial⟩

theorem SetOp.within_total (op : SetOp K) (h : op.total = true) : op.prog.Within false true SCOp.total := by
  cases op with
  | set op =>
    refine SProg.Within.bind _ _ ?_ (fun _ => trivial)
    cases op with
    | insert => exact ⟨rfl, fun _ => ⟨rfl, fun _ => trivial⟩⟩
    | insertN ks => exact SProg.Within.bind _ _ (SSOp.insertAll_within (fun _ => rfl) (fun _ _ => rfl) ks 0) (fun _ => trivial)
    | removeN ks => exact SProg.Within.bind _ _ (SSOp.removeAll_within ks (fun k hk => rfl) 0) (fun _ => trivial)
    | _ => exact ⟨rfl, fun _ => trivial⟩
  | value c => cases h
  | next c => cases h
  | _ => exact ⟨rfl, fun _ => trivial⟩

end Stl4go
