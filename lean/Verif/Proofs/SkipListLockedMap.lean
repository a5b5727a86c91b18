import Verif.Proofs.SkipListLocked
import Verif.Proofs.SkipListThreadMap
import Verif.Proofs.Locked
import Verif.Spec.SkipListLocked
/-! # Lemmas for C181: calls behind a lock, on finite maps -/
namespace Stl4go
variable {K V α β : Type} {impl : SLImpl K}

/-! ## Calls that only look -/

/-- No write. -/
def SGThread.Plain : SGThread K V α → Prop
  | .setValue _ _ _ => False
  | .level k => ∀ x, (k x).Plain
  | .len k => ∀ x, (k x).Plain
  | .next _ _ k => ∀ x, (k x).Plain
  | .key _ k => ∀ x, (k x).Plain
  | .value _ k => ∀ x, (k x).Plain
  | _ => True

theorem SGThread.Plain.bind {x : SGThread K V α} {f : α → SGThread K V β} (h : x.Plain) (hf : ∀ a, (f a).Plain) : (x >>= f).Plain := by
  show (x.bind f).Plain
  induction x with
  | ret a => exact hf a
  | panic => trivial
  | diverge => trivial
  | level k ih => exact fun y => ih y (h y)
  | len k ih => exact fun y => ih y (h y)
  | next r i k ih => exact fun y => ih y (h y)
  | key p k ih => exact fun y => ih y (h y)
  | value p k ih => exact fun y => ih y (h y)
  | setValue p v k ih => exact h.elim

theorem SGThread.Plain.reads {x : SGThread K V α} (h : x.Plain) : x.steps'.Reads := by
  induction x with
  | ret a => trivial
  | panic => trivial
  | diverge => trivial
  | level k ih => exact ⟨fun _ => rfl, fun s => ih _ (h _)⟩
  | len k ih => exact ⟨fun _ => rfl, fun s => ih _ (h _)⟩
  | next r i k ih =>
    simp only [SGThread.steps', Steps.Reads]
    refine ⟨fun _ => rfl, fun s => ?_⟩
    cases s.nextAt r i with
    | ret v => exact ih v (h v)
    | panic => trivial
    | diverge => trivial
  | key p k ih =>
    simp only [SGThread.steps', Steps.Reads]
    refine ⟨fun _ => rfl, fun s => ?_⟩
    cases s.deref p with
    | ret v => exact ih _ (h _)
    | panic => trivial
    | diverge => trivial
  | value p k ih =>
    simp only [SGThread.steps', Steps.Reads]
    refine ⟨fun _ => rfl, fun s => ?_⟩
    cases s.deref p with
    | ret v => exact ih _ (h _)
    | panic => trivial
    | diverge => trivial
  | setValue p v k ih => exact h.elim

theorem Plain.ite {c : Prop} [Decidable c] {x y : SGThread K V α} (hx : x.Plain) (hy : y.Plain) : (if c then x else y).Plain := by
  by_cases h : c
  · rw [if_pos h]; exact hx
  · rw [if_neg h]; exact hy

theorem sgFindInnerO_plain [GoOrd K] (key : K) (i fuel : Nat) : ∀ (prev : Ref) (cur : Option Nat), (sgFindInnerO key i fuel prev cur : SGThread K V _).Plain := by
  induction fuel with
  | zero => exact fun _ _ => trivial
  | succ fuel ih =>
    intro prev cur
    cases cur with
    | none => trivial
    | some p => exact fun a => Plain.ite trivial (fun b => Plain.ite trivial (fun nx => ih _ _))

theorem sgFindOuterO_plain [GoOrd K] (fuel : Nat) (key : K) (i : Nat) : ∀ prev : Ref, (sgFindOuterO fuel key i prev : SGThread K V _).Plain := by
  induction i with
  | zero => exact fun _ => trivial
  | succ i ih =>
    intro prev cur
    refine (sgFindInnerO_plain key i (fuel + 1) prev cur).bind (fun r => ?_)
    cases r with
    | inl p => trivial
    | inr p => exact ih p

theorem sgFindInnerF_plain (keyCmp : K → K → Int) (key : K) (i fuel : Nat) : ∀ (prev : Ref) (cur : Option Nat), (sgFindInnerF keyCmp key i fuel prev cur : SGThread K V _).Plain := by
  induction fuel with
  | zero => exact fun _ _ => trivial
  | succ fuel ih =>
    intro prev cur
    cases cur with
    | none => trivial
    | some p => exact fun a => Plain.ite trivial (Plain.ite trivial (fun nx => ih _ _))

theorem sgFindOuterF_plain (keyCmp : K → K → Int) (fuel : Nat) (key : K) (i : Nat) : ∀ prev : Ref, (sgFindOuterF keyCmp fuel key i prev : SGThread K V _).Plain := by
  induction i with
  | zero => exact fun _ => trivial
  | succ i ih =>
    intro prev cur
    refine (sgFindInnerF_plain keyCmp key i (fuel + 1) prev cur).bind (fun r => ?_)
    cases r with
    | inl p => trivial
    | inr p => exact ih p

theorem sgDoFindNode_plain [GoOrd K] (fuel : Nat) (key : K) (eq : Bool) : (sgDoFindNode fuel key eq : SGThread K V _).Plain := by
  intro l
  refine (sgFindOuterO_plain fuel key l .head).bind (fun r => ?_)
  cases r with
  | inl p => trivial
  | inr p => exact Plain.ite trivial (fun _ => trivial)

theorem sgLowerBoundF_plain (keyCmp : K → K → Int) (fuel : Nat) (key : K) : (sgLowerBoundF keyCmp fuel key : SGThread K V _).Plain := by
  intro l
  refine (sgFindOuterF_plain keyCmp fuel key l .head).bind (fun r => ?_)
  cases r with
  | inl p => trivial
  | inr p => exact fun _ => trivial

theorem sgFindNode_plain (impl : SLImpl K) (fuel : Nat) (key : K) : (sgFindNode impl fuel key : SGThread K V _).Plain := by
  cases impl with
  | ordered o => exact sgDoFindNode_plain fuel key true
  | func f =>
    refine (sgLowerBoundF_plain f fuel key).bind (fun r => ?_)
    cases r with
    | none => trivial
    | some p => exact fun a => Plain.ite trivial trivial

theorem sgLowerBound_plain (impl : SLImpl K) (fuel : Nat) (key : K) : (sgLowerBound impl fuel key : SGThread K V _).Plain := by
  cases impl with
  | ordered o => exact sgDoFindNode_plain fuel key false
  | func f => exact sgLowerBoundF_plain f fuel key

theorem sgUpperBound_plain (impl : SLImpl K) (fuel : Nat) (key : K) : (sgUpperBound impl fuel key : SGThread K V _).Plain := by
  cases impl with
  | ordered o =>
    refine (sgDoFindNode_plain fuel key false).bind (fun r => ?_)
    cases r with
    | none => trivial
    | some p => exact fun a => Plain.ite (fun _ => trivial) trivial
  | func f =>
    refine (sgLowerBoundF_plain f fuel key).bind (fun r => ?_)
    cases r with
    | none => trivial
    | some p => exact fun a => Plain.ite (fun _ => trivial) trivial

theorem sgForEachLoop_plain (fuel : Nat) : ∀ (e : Option Nat) (l : List (K × V)), (sgForEachLoop fuel e l).Plain := by
  induction fuel with
  | zero => exact fun _ _ => trivial
  | succ fuel ih =>
    intro e l
    cases e with
    | none => trivial
    | some p => exact fun a v nx => ih nx _

theorem sgKeyOf_plain (p : Option Nat) : (sgKeyOf p : SGThread K V _).Plain := by
  cases p with
  | none => trivial
  | some p => exact fun _ => trivial

/-- The calls that the client makes with the lock for reading do not write. -/
theorem LKCall.reads (impl : SLImpl K) (c : LKCall K V) (h : c.writes = false) : (c.body impl).Reads := by
  cases c with
  | insert _ _ _ => exact nomatch h
  | remove _ => exact nomatch h
  | clear => exact nomatch h
  | other c =>
    refine ⟨fun _ => rfl, fun s => ?_⟩
    show Steps.Reads (c.thread impl s.nodes.length).steps'
    refine SGThread.Plain.reads ?_
    cases c with
    | find k =>
      refine (sgFindNode_plain impl _ k).bind (fun r => ?_)
      cases r with
      | none => trivial
      | some p => exact fun _ => trivial
    | has k => exact (sgFindNode_plain impl _ k).bind (fun r => trivial)
    | update k f => exact nomatch h
    | lowerBound k => exact (sgLowerBound_plain impl _ k).bind (fun r => sgKeyOf_plain r)
    | upperBound k => exact (sgUpperBound_plain impl _ k).bind (fun r => sgKeyOf_plain r)
    | len => exact fun _ => trivial
    | forEach => exact fun e => (sgForEachLoop_plain _ e []).bind (fun _ => trivial)
    | forEachMutable f => exact nomatch h

/-! ## Finite maps -/

theorem Res.ok_of_pair {σ : Type} {x : Res σ α} {a : α} {s : σ} (h : x.pair = .ret (a, s)) : x = .ok a s := by
  cases x with
  | ok b t => injection h with h; injection h with h1 h2; rw [h1, h2]
  | panic t => exact nomatch h
  | diverge => exact nomatch h

/-- A call on a list that stores `m` does what `spec` says. -/
theorem LKCall.body_spec (hl : impl.Lawful) {sl : SL K V} {ids : List Nat} {m : List (K × V)} (h : SLInv impl.less sl ids m) (c : LKCall K V) :
    ∃ sl' ids', (c.body impl).run sl = .ok (c.spec impl.less m).1 sl' ∧ SLInv impl.less sl' ids' (c.spec impl.less m).2 := by
  suffices ∃ sl' ids', c.call impl sl = .ret ((c.spec impl.less m).1, sl') ∧ SLInv impl.less sl' ids' (c.spec impl.less m).2 by
    obtain ⟨sl', ids', h1, h2⟩ := this
    refine ⟨sl', ids', ?_, h2⟩
    rw [← LKCall.run_body] at h1
    exact Res.ok_of_pair h1
  cases c with
  | insert rnd k v =>
    obtain ⟨sl', ids', h1, h2⟩ := h.exec hl rnd (.insert k v)
    refine ⟨sl', ids', ?_, h2⟩
    obtain ⟨s, e1, e2⟩ := Outcome.bind_ret h1
    injection e2 with e2; injection e2 with e2 _
    simp only [LKCall.call, e1, Outcome.ret_bind, LKCall.spec, e2]
    rfl
  | remove k =>
    obtain ⟨sl', ids', h1, h2⟩ := h.exec hl 0 (.remove k)
    refine ⟨sl', ids', ?_, h2⟩
    obtain ⟨s, e1, e2⟩ := Outcome.bind_ret h1
    injection e2 with e2; injection e2 with e2 e3
    injection e3 with e3
    simp only [LKCall.call, e1, Outcome.ret_bind, LKCall.spec, e2, e3]
    rfl
  | clear => exact ⟨_, _, rfl, h.clear⟩
  | other c =>
    obtain ⟨sl', h1, h2⟩ := c.call_spec hl h
    exact ⟨sl', ids, h1, h2⟩

theorem LKCall.results_snoc (less : K → K → Bool) (cs : List (LKCall K V)) (c : LKCall K V) : ∀ m, LKCall.results less m (cs ++ [c]) = LKCall.results less m cs ++ [(c.spec less (LKCall.after less m cs)).1] := by
  induction cs with
  | nil => intro m; rfl
  | cons d cs ih => intro m; simp only [List.cons_append, LKCall.results, ih]; rfl

theorem LKCall.results_length (less : K → K → Bool) (cs : List (LKCall K V)) : ∀ m, (LKCall.results less m cs).length = cs.length := by
  induction cs with
  | nil => intro m; rfl
  | cons d cs ih => intro m; simp only [LKCall.results, List.length_cons, ih]

/-- Calls made one after another, on a list that stores `m`. -/
theorem serially_spec (hl : impl.Lawful) (cs : List (LKCall K V)) : ∀ {l : List (LockedCall (SL K V) (SGRet K V) × Outcome (SGRet K V))} {sl sl' : SL K V} {ids : List Nat} {m : List (K × V)},
    SLInv impl.less sl ids m → l.map (·.1) = cs.map (·.locked impl) → Serially sl l sl' →
      l.map (·.2) = (LKCall.results impl.less m cs).map .ret ∧ ∃ ids', SLInv impl.less sl' ids' (LKCall.after impl.less m cs) := by
  induction cs with
  | nil =>
    intro l sl sl' ids m h hc hs
    cases l with
    | nil => cases hs; exact ⟨rfl, ids, h⟩
    | cons x l => exact nomatch hc
  | cons c cs ih =>
    intro l sl sl' ids m h hc hs
    obtain ⟨s1, ids1, e1, e2⟩ := c.body_spec hl h
    cases hs with
    | nil => exact nomatch hc
    | ret hr ht =>
      simp only [List.map_cons, List.cons.injEq] at hc
      obtain ⟨hc1, hc2⟩ := hc
      rw [hc1] at hr
      have hr : (c.body impl).run sl = _ := hr
      rw [e1] at hr
      injection hr with hr1 hr2
      subst hr1; subst hr2
      obtain ⟨f1, f2⟩ := ih e2 hc2 ht
      exact ⟨by simp only [List.map_cons, f1, LKCall.results], f2⟩
    | panic hr ht =>
      simp only [List.map_cons, List.cons.injEq] at hc
      rw [hc.1] at hr
      have hr : (c.body impl).run sl = _ := hr
      rw [e1] at hr
      exact nomatch hr

/-- Which calls the entries of the log are. -/
theorem order_of_log {C D : Type} (f : C → D) (calls : Nat → List C) (n : Nat) : ∀ L : List (Nat × D), L.length = n →
    (∀ i, (L.filter (fun e => e.1 = i)).map (·.2) <+: (calls i).map f) →
    ∃ order : List (Nat × C), order.map (fun e => (e.1, f e.2)) = L ∧ ∀ i, (order.filter (fun e => e.1 = i)).map (·.2) <+: calls i := by
  induction n with
  | zero =>
    intro L hL _
    refine ⟨[], ?_, fun i => List.nil_prefix⟩
    rw [List.length_eq_zero_iff.1 hL]; rfl
  | succ n ih =>
    intro L hL hp
    obtain ⟨L', x, rfl⟩ : ∃ L' x, L = L' ++ [x] := ⟨L.dropLast, L.getLast (by intro e; rw [e] at hL; exact nomatch hL), (List.dropLast_concat_getLast _).symm⟩
    have hlen : L'.length = n := by simp at hL; exact hL
    obtain ⟨order, h1, h2⟩ := ih L' hlen (fun i => by
      refine List.IsPrefix.trans ?_ (hp i)
      rw [List.filter_append, List.map_append]
      exact List.prefix_append _ _)
    obtain ⟨i, d⟩ := x
    -- the next call of goroutine `i`
    have hlog : (L'.filter (fun e => e.1 = i)).map (·.2) = ((order.filter (fun e => e.1 = i)).map (·.2)).map f := by
      rw [← h1, List.filter_map, List.map_map, List.map_map]
      rfl
    have hpi := hp i
    rw [List.filter_append, List.map_append, hlog] at hpi
    simp only [List.filter_cons, List.filter_nil, decide_true, if_true, List.map_cons, List.map_nil] at hpi
    obtain ⟨rest, hrest⟩ := h2 i
    rw [← hrest, List.map_append] at hpi
    have hpi := (List.prefix_append_right_inj _).1 hpi
    cases rest with
    | nil => simp at hpi
    | cons c rest =>
      obtain ⟨_, hd⟩ := hpi
      injection hd with hd _
      have hd : d = f c := hd
      refine ⟨order ++ [(i, c)], by rw [List.map_append, h1, hd]; rfl, fun j => ?_⟩
      rw [List.filter_append, List.map_append]
      by_cases hj : i = j
      · subst hj
        simp only [List.filter_cons, List.filter_nil, decide_true, if_true, List.map_cons, List.map_nil]
        rw [← hrest]
        exact ⟨rest, by simp⟩
      · simp only [List.filter_cons, List.filter_nil, hj, decide_false, Bool.false_eq_true, if_false, List.map_nil, List.append_nil]
        exact h2 j

end Stl4go
