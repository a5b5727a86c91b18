import Verif.Proofs.SkipListThreads
/-! # Lemmas for C180: the goroutines do what the calls do, and look at the values they should -/
namespace Stl4go
variable {K V α β : Type}

/-! ## The same effects -/

/-- What a call that only looks leads to. -/
def Outcome.look {σ : Type} (o : Outcome α) (s : σ) : Res σ α :=
  match o with
  | .ret a => .ok a s
  | .panic => .panic s
  | .diverge => .diverge

theorem SGThread.run_bind (x : SGThread K V α) (f : α → SGThread K V β) : (x.bind f).run = x.run >>= fun a => (f a).run := by
  funext sl
  induction x generalizing sl with
  | ret a => rfl
  | panic => rfl
  | diverge => rfl
  | level k ih => exact ih sl.level sl
  | len k ih => exact ih sl.len sl
  | next r i k ih =>
    simp only [SGThread.bind, SGThread.run, GoM.bind_def]
    cases e : sl.nextAt r i with
    | ret v => exact ih v sl
    | panic => rfl
    | diverge => rfl
  | key p k ih =>
    simp only [SGThread.bind, SGThread.run, GoM.bind_def]
    cases e : sl.deref p with
    | ret n => exact ih n.key sl
    | panic => rfl
    | diverge => rfl
  | value p k ih =>
    simp only [SGThread.bind, SGThread.run, GoM.bind_def]
    cases e : sl.deref p with
    | ret n => exact ih n.value sl
    | panic => rfl
    | diverge => rfl
  | setValue p v k ih =>
    rw [GoM.bind_def]
    simp only [SGThread.bind, SGThread.run]
    cases e : sl.setValue p v with
    | ret s => exact ih s
    | panic => rfl
    | diverge => rfl

/-- `x` only looks, and finds `o`. -/
def SGThread.Looks (x : SGThread K V α) (sl : SL K V) (o : Outcome α) : Prop := x.run sl = o.look sl

section
variable {sl : SL K V}

theorem SGThread.Looks.bind {x : SGThread K V α} {o : Outcome α} (h : x.Looks sl o) {f : α → SGThread K V β} {g : α → Outcome β} (hf : ∀ a, o = .ret a → (f a).Looks sl (g a)) :
    (x.bind f).Looks sl (o >>= g) := by
  unfold SGThread.Looks at *
  rw [SGThread.run_bind, GoM.bind_def, h]
  cases o with
  | ret a => exact hf a rfl
  | panic => rfl
  | diverge => rfl

theorem SL.deref_ne_diverge (sl : SL K V) (p : Nat) : sl.deref p ≠ .diverge := by
  rcases sl.deref_cases p with ⟨n, _, e, _⟩ | ⟨_, e, _⟩ <;> rw [e] <;> exact fun h => nomatch h

theorem idx_ne_diverge (l : List α) (i : Nat) : idx l i ≠ .diverge := by
  unfold idx
  cases l[i]? <;> exact fun h => nomatch h

theorem SL.nextAt_ne_diverge (sl : SL K V) (r : Ref) (i : Nat) : sl.nextAt r i ≠ .diverge := by
  cases r with
  | head => exact idx_ne_diverge _ _
  | node p =>
    simp only [SL.nextAt]
    rcases sl.deref_cases p with ⟨n, _, e, _⟩ | ⟨_, e, _⟩ <;> rw [e]
    · exact idx_ne_diverge _ _
    · exact fun h => nomatch h

theorem SGThread.looks_next {r : Ref} {i : Nat} {k : Option Nat → SGThread K V α} {g : Option Nat → Outcome α} (h : ∀ v, sl.nextAt r i = .ret v → (k v).Looks sl (g v)) :
    (SGThread.next r i k).Looks sl (sl.nextAt r i >>= g) := by
  unfold SGThread.Looks
  simp only [SGThread.run]
  cases e : sl.nextAt r i with
  | ret v => exact h v e
  | panic => rfl
  | diverge => exact absurd e (sl.nextAt_ne_diverge r i)

theorem SGThread.looks_key {p : Nat} {k : K → SGThread K V α} {g : SLNode K V → Outcome α} (h : ∀ n, sl.deref p = .ret n → (k n.key).Looks sl (g n)) :
    (SGThread.key p k).Looks sl (sl.deref p >>= g) := by
  unfold SGThread.Looks
  simp only [SGThread.run]
  cases e : sl.deref p with
  | ret v => exact h v e
  | panic => rfl
  | diverge => exact absurd e (sl.deref_ne_diverge p)

theorem SGThread.looks_value {p : Nat} {k : V → SGThread K V α} {g : SLNode K V → Outcome α} (h : ∀ n, sl.deref p = .ret n → (k n.value).Looks sl (g n)) :
    (SGThread.value p k).Looks sl (sl.deref p >>= g) := by
  unfold SGThread.Looks
  simp only [SGThread.run]
  cases e : sl.deref p with
  | ret v => exact h v e
  | panic => rfl
  | diverge => exact absurd e (sl.deref_ne_diverge p)

theorem SGThread.looks_key_again {p : Nat} {n : SLNode K V} (e : sl.deref p = .ret n) {k : K → SGThread K V α} {o : Outcome α} (h : (k n.key).Looks sl o) :
    (SGThread.key p k).Looks sl o := by
  unfold SGThread.Looks at *
  simp only [SGThread.run, e]
  exact h

theorem SL.nextAt_node {p : Nat} {n : SLNode K V} (e : sl.deref p = .ret n) (i : Nat) : sl.nextAt (.node p) i = idx n.next i := by
  simp only [SL.nextAt, e, Outcome.ret_bind]

theorem SGThread.looks_ret (a : α) : (SGThread.ret a : SGThread K V α).Looks sl (.ret a) := rfl

theorem SGThread.looks_next_ret (r : Ref) (i : Nat) : (SGThread.next r i .ret : SGThread K V (Option Nat)).Looks sl (sl.nextAt r i) := by
  have h := SGThread.looks_next (sl := sl) (r := r) (i := i) (k := .ret) (g := .ret) (fun v _ => rfl)
  cases e : sl.nextAt r i with
  | ret v => rw [e] at h; exact h
  | panic => rw [e] at h; exact h
  | diverge => rw [e] at h; exact h

theorem looks_findInnerO [GoOrd K] (key : K) (i : Nat) (fuel : Nat) (prev : Ref) (cur : Option Nat) :
    (sgFindInnerO key i fuel prev cur : SGThread K V _).Looks sl (sl.doFindNodeInner key i fuel prev cur) := by
  induction fuel generalizing prev cur with
  | zero => rfl
  | succ fuel ih =>
    cases cur with
    | none => rfl
    | some cur =>
      refine SGThread.looks_key (fun n hn => ?_)
      by_cases h1 : GoEq.eq n.key key = true
      · rw [if_pos h1, if_pos h1]; rfl
      · rw [if_neg h1, if_neg h1]
        refine SGThread.looks_key_again hn ?_
        by_cases h2 : GoOrd.lt key n.key = true
        · rw [if_pos h2, if_pos h2]; rfl
        · rw [if_neg h2, if_neg h2, ← SL.nextAt_node hn]
          exact SGThread.looks_next (fun v _ => ih _ v)

theorem looks_findOuterO [GoOrd K] (key : K) (i : Nat) (prev : Ref) :
    (sgFindOuterO sl.nodes.length key i prev : SGThread K V _).Looks sl (sl.doFindNodeOuter key i prev) := by
  induction i generalizing prev with
  | zero => rfl
  | succ i ih =>
    refine SGThread.looks_next (fun v _ => ?_)
    refine (looks_findInnerO key i _ prev v).bind (fun a _ => ?_)
    cases a with
    | inl p => rfl
    | inr q => exact ih q

theorem looks_doFindNode [GoOrd K] (key : K) (eq : Bool) : (sgDoFindNode sl.nodes.length key eq : SGThread K V _).Looks sl (sl.doFindNode key eq) := by
  show SGThread.Looks (SGThread.bind _ _) sl _
  refine (looks_findOuterO key sl.level .head).bind (fun a _ => ?_)
  cases a with
  | inl p => rfl
  | inr q =>
    cases eq with
    | true => rfl
    | false => exact SGThread.looks_next_ret q 0

theorem looks_upperBoundO [GoOrd K] (key : K) : (sgUpperBoundO sl.nodes.length key : SGThread K V _).Looks sl (sl.upperBoundO key) := by
  refine (looks_doFindNode key false).bind (fun a _ => ?_)
  cases a with
  | none => rfl
  | some p =>
    refine SGThread.looks_key (fun n hn => ?_)
    by_cases h1 : GoEq.eq n.key key = true
    · rw [if_pos h1, if_pos h1, ← SL.nextAt_node hn]; exact SGThread.looks_next_ret _ 0
    · rw [if_neg h1, if_neg h1]; rfl

theorem looks_findInnerF (keyCmp : K → K → Int) (key : K) (i : Nat) (fuel : Nat) (prev : Ref) (cur : Option Nat) :
    (sgFindInnerF keyCmp key i fuel prev cur : SGThread K V _).Looks sl (sl.lowerBoundInnerF keyCmp key i fuel prev cur) := by
  induction fuel generalizing prev cur with
  | zero => rfl
  | succ fuel ih =>
    cases cur with
    | none => rfl
    | some cur =>
      refine SGThread.looks_key (fun n hn => ?_)
      by_cases h1 : keyCmp n.key key = 0
      · rw [if_pos h1, if_pos h1]; rfl
      · rw [if_neg h1, if_neg h1]
        by_cases h2 : keyCmp n.key key > 0
        · rw [if_pos h2, if_pos h2]; rfl
        · rw [if_neg h2, if_neg h2, ← SL.nextAt_node hn]
          exact SGThread.looks_next (fun v _ => ih _ v)

theorem looks_findOuterF (keyCmp : K → K → Int) (key : K) (i : Nat) (prev : Ref) :
    (sgFindOuterF keyCmp sl.nodes.length key i prev : SGThread K V _).Looks sl (sl.lowerBoundOuterF keyCmp key i prev) := by
  induction i generalizing prev with
  | zero => rfl
  | succ i ih =>
    refine SGThread.looks_next (fun v _ => ?_)
    refine (looks_findInnerF keyCmp key i _ prev v).bind (fun a _ => ?_)
    cases a with
    | inl p => rfl
    | inr q => exact ih q

theorem looks_lowerBoundF (keyCmp : K → K → Int) (key : K) : (sgLowerBoundF keyCmp sl.nodes.length key : SGThread K V _).Looks sl (sl.lowerBoundF keyCmp key) := by
  show SGThread.Looks (SGThread.bind _ _) sl _
  refine (looks_findOuterF keyCmp key sl.level .head).bind (fun a _ => ?_)
  cases a with
  | inl p => rfl
  | inr q => exact SGThread.looks_next_ret q 0

theorem looks_findNode (impl : SLImpl K) (key : K) : (sgFindNode impl sl.nodes.length key : SGThread K V _).Looks sl (sl.findNode impl key) := by
  cases impl with
  | ordered o => exact looks_doFindNode key true
  | func keyCmp =>
    refine (looks_lowerBoundF keyCmp key).bind (fun a _ => ?_)
    cases a with
    | none => rfl
    | some p =>
      refine SGThread.looks_key (fun n hn => ?_)
      by_cases h1 : keyCmp n.key key = 0
      · rw [if_pos h1, if_pos h1]; rfl
      · rw [if_neg h1, if_neg h1]; rfl

theorem looks_lowerBound (impl : SLImpl K) (key : K) : (sgLowerBound impl sl.nodes.length key : SGThread K V _).Looks sl (sl.lowerBound impl key) := by
  cases impl with
  | ordered o => exact looks_doFindNode key false
  | func keyCmp => exact looks_lowerBoundF keyCmp key

theorem looks_upperBound (impl : SLImpl K) (key : K) : (sgUpperBound impl sl.nodes.length key : SGThread K V _).Looks sl (sl.upperBound impl key) := by
  cases impl with
  | ordered o => exact looks_upperBoundO key
  | func keyCmp =>
    refine (looks_lowerBoundF keyCmp key).bind (fun a _ => ?_)
    cases a with
    | none => rfl
    | some p =>
      refine SGThread.looks_key (fun n hn => ?_)
      by_cases h1 : keyCmp n.key key = 0
      · rw [if_pos h1, if_pos h1, ← SL.nextAt_node hn]; exact SGThread.looks_next_ret _ 0
      · rw [if_neg h1, if_neg h1]; rfl

theorem looks_forEachLoop (fuel : Nat) (e : Option Nat) (l : List (K × V)) : ∃ o, (sgForEachLoop fuel e l).Looks sl o ∧
    SL.forEachLoop (fun s k v => .ret (s.1, s.2 ++ [(k, v)])) fuel e (sl, l) = o >>= fun l => .ret (sl, l) := by
  induction fuel generalizing e l with
  | zero => exact ⟨.diverge, rfl, rfl⟩
  | succ fuel ih =>
    cases e with
    | none => exact ⟨.ret l, rfl, rfl⟩
    | some e =>
      rcases sl.deref_cases e with ⟨n, _, hn, _⟩ | ⟨_, hn, _⟩
      · cases hx : idx n.next 0 with
        | ret x =>
          obtain ⟨o, h1, h2⟩ := ih x (l ++ [(n.key, n.value)])
          refine ⟨o, ?_, ?_⟩
          · unfold SGThread.Looks at *
            simp only [sgForEachLoop, SGThread.run, hn, SL.nextAt_node hn, hx]
            exact h1
          · simp only [SL.forEachLoop, hn, Outcome.ret_bind, hx]
            exact h2
        | panic =>
          refine ⟨.panic, ?_, ?_⟩
          · unfold SGThread.Looks
            simp only [sgForEachLoop, SGThread.run, hn, SL.nextAt_node hn, hx]
            rfl
          · simp only [SL.forEachLoop, hn, Outcome.ret_bind, hx]
            rfl
        | diverge => exact absurd hx (idx_ne_diverge _ _)
      · refine ⟨.panic, ?_, ?_⟩
        · unfold SGThread.Looks
          simp only [sgForEachLoop, SGThread.run, hn]
          rfl
        · simp only [SL.forEachLoop, hn]
          rfl

theorem SL.withVal_deref {p : Nat} {n : SLNode K V} (h : sl.deref p = .ret n) (v : V) : (sl.withVal p v).deref p = .ret { n with value := v } := by
  rcases sl.deref_cases p with ⟨n', e1, e2, _⟩ | ⟨_, e2, _⟩
  · rw [e2] at h
    injection h with h
    subst h
    simp [SL.deref, SL.withVal, idx, e1]
  · rw [e2] at h; exact nomatch h

theorem SL.setValue_deref {p : Nat} {n : SLNode K V} (h : sl.deref p = .ret n) (v : V) : sl.setValue p v = .ret (sl.withVal p v) := by
  rcases sl.deref_cases p with ⟨n', _, _, e⟩ | ⟨_, e2, _⟩
  · rw [SL.setValue_withVal, if_pos e]
  · rw [e2] at h; exact nomatch h

end

theorem run_forEachMutableLoop (f : K → V → V) (fuel : Nat) (e : Option Nat) (sl : SL K V) :
    ((sgForEachMutableLoop f fuel e).run sl).pair =
    SL.forEachMutableLoop (fun (s : SL K V × Unit) k p => do let v ← s.1.readPtr p; let sl ← s.1.setValue p (f k v); return (sl, ())) fuel e (sl, ()) >>= fun r => .ret ((), r.1) := by
  induction fuel generalizing e sl with
  | zero => rfl
  | succ fuel ih =>
    cases e with
    | none => rfl
    | some e =>
      rcases sl.deref_cases e with ⟨n, _, hn, _⟩ | ⟨_, hn, _⟩
      · have hw := SL.withVal_deref hn (f n.key n.value)
        simp only [sgForEachMutableLoop, SGThread.run, SL.forEachMutableLoop, SL.readPtr, hn, Outcome.ret_bind, Outcome.pure_eq, SL.setValue_deref hn, SL.nextAt_node hw, hw]
        cases hx : idx n.next 0 with
        | ret x => exact ih x _
        | panic => rfl
        | diverge => exact absurd hx (idx_ne_diverge _ _)
      · simp only [sgForEachMutableLoop, SGThread.run, SL.forEachMutableLoop, hn]
        rfl

theorem Res.pair_look {σ : Type} (o : Outcome α) (s : σ) : (o.look s).pair = o >>= fun a => .ret (a, s) := by cases o <;> rfl

theorem SGThread.Looks.pair {sl : SL K V} {x : SGThread K V α} {o : Outcome α} (h : x.Looks sl o) : (x.run sl).pair = o >>= fun a => .ret (a, sl) := by
  rw [show x.run sl = o.look sl from h, Res.pair_look]

theorem SGThread.Looks.pair_bind {sl : SL K V} {x : SGThread K V α} {o : Outcome α} (h : x.Looks sl o) (f : α → SGThread K V β) :
    ((x.bind f).run sl).pair = o >>= fun a => ((f a).run sl).pair := by
  rw [SGThread.run_bind, GoM.bind_def, show x.run sl = o.look sl from h]
  cases o <;> rfl

/-- The goroutine of a call, alone, does what the call does. -/
theorem SGCall.run_thread (impl : SLImpl K) (c : SGCall K V) (sl : SL K V) : ((c.thread impl sl.nodes.length).run sl).pair = c.call impl sl := by
  have bounds : ∀ (o : Outcome (Option Nat)), (o >>= fun p => ((sgKeyOf p : SGThread K V (SGRet K V)).run sl).pair) =
      ((o >>= fun p => pure { node := p, stop := none }) >>= fun it : SLIter =>
        if it.isNotEnd then do let a ← it.key sl; return (SGRet.key (some a), sl) else return (SGRet.key none, sl) : Outcome (SGRet K V × SL K V)) := by
    intro o
    cases o with
    | ret p =>
      simp only [Outcome.ret_bind, Outcome.pure_eq]
      cases p with
      | none => rfl
      | some p =>
        simp only [SLIter.isNotEnd, ne_eq, reduceCtorEq, not_false_eq_true, decide_true, if_true, SLIter.key, SLIter.deref, sgKeyOf, SGThread.run]
        rcases sl.deref_cases p with ⟨n, _, hn, _⟩ | ⟨_, hn, _⟩ <;> rw [hn] <;> rfl
    | panic => rfl
    | diverge => rfl
  cases c with
  | find k =>
    refine ((looks_findNode impl k).pair_bind _).trans ?_
    simp only [SGCall.call, SL.find]
    cases sl.findNode impl k with
    | ret p =>
      cases p with
      | none => rfl
      | some p =>
        simp only [Outcome.ret_bind, SL.readPtr, SGThread.run]
        rcases sl.deref_cases p with ⟨n, _, hn, _⟩ | ⟨_, hn, _⟩ <;> rw [hn] <;> rfl
    | panic => rfl
    | diverge => rfl
  | has k =>
    refine ((looks_findNode impl k).pair_bind _).trans ?_
    simp only [SGCall.call, SL.has]
    cases sl.findNode impl k <;> rfl
  | update k f =>
    refine ((looks_findNode impl k).pair_bind _).trans ?_
    simp only [SGCall.call, SL.find]
    cases sl.findNode impl k with
    | ret p =>
      cases p with
      | none => rfl
      | some p =>
        simp only [Outcome.ret_bind, SL.readPtr, SGThread.run]
        rcases sl.deref_cases p with ⟨n, _, hn, _⟩ | ⟨_, hn, _⟩
        · simp only [hn, SL.setValue_deref hn]; rfl
        · rw [hn]; rfl
    | panic => rfl
    | diverge => rfl
  | lowerBound k => exact ((looks_lowerBound impl k).pair_bind _).trans (bounds _)
  | upperBound k => exact ((looks_upperBound impl k).pair_bind _).trans (bounds _)
  | len => rfl
  | forEach =>
    simp only [SGCall.thread, SGThread.run, SGCall.call, SL.forEach, SL.nextAt]
    cases hx : idx sl.headNext 0 with
    | ret e =>
      obtain ⟨o, h1, h2⟩ := looks_forEachLoop (sl := sl) (sl.nodes.length + 1) e []
      simp only [Outcome.ret_bind, h2]
      refine (h1.pair_bind _).trans ?_
      cases o <;> rfl
    | panic => rfl
    | diverge => exact absurd hx (idx_ne_diverge _ _)
  | forEachMutable f =>
    simp only [SGCall.thread, SGThread.run, SGCall.call, SL.forEachMutable, SL.nextAt]
    cases hx : idx sl.headNext 0 with
    | ret e =>
      have h := run_forEachMutableLoop f (sl.nodes.length + 1) e sl
      simp only [Outcome.ret_bind, SGThread.bind_eq, SGThread.run_bind, GoM.bind_def]
      generalize SL.forEachMutableLoop _ _ _ _ = y at h ⊢
      cases hr : (sgForEachMutableLoop f (sl.nodes.length + 1) e).run sl with
      | ok a s =>
        rw [hr] at h
        cases y with
        | ret r => injection h with h; injection h with _ h; subst h; rfl
        | panic => exact nomatch h
        | diverge => exact nomatch h
      | panic s =>
        rw [hr] at h
        cases y with
        | ret r => exact nomatch h
        | panic => rfl
        | diverge => exact nomatch h
      | diverge =>
        rw [hr] at h
        cases y with
        | ret r => exact nomatch h
        | panic => exact nomatch h
        | diverge => rfl
    | panic => rfl
    | diverge => exact absurd hx (idx_ne_diverge _ _)

/-! ## What they look at -/

section
variable {sl : SL K V} {R W : Nat → Prop}

/-- Looks at no value and writes none. -/
abbrev SGThread.Quiet (sl : SL K V) (x : SGThread K V α) : Prop := x.Within sl (fun _ => False) (fun _ => False)

theorem SGThread.Quiet.bind {x : SGThread K V α} (hx : x.Quiet sl) {f : α → SGThread K V β} (hf : ∀ a, x.run sl = .ok a sl → (f a).Within sl R W) :
    (x.bind f).Within sl R W := by
  induction x with
  | ret a => exact hf a rfl
  | panic => trivial
  | diverge => trivial
  | level k ih => exact ih _ hx hf
  | len k ih => exact ih _ hx hf
  | next r i k ih => exact fun v hv => ih v (hx v hv) (fun a ha => hf a (by simp only [SGThread.run, hv]; exact ha))
  | key p k ih => exact fun n hn => ih n.key (hx n hn) (fun a ha => hf a (by simp only [SGThread.run, hn]; exact ha))
  | value p k ih => exact hx.1.elim
  | setValue p v k ih => exact hx.1.elim

theorem quiet_findInnerO [GoOrd K] (key : K) (i : Nat) (fuel : Nat) (prev : Ref) (cur : Option Nat) : (sgFindInnerO key i fuel prev cur : SGThread K V _).Quiet sl := by
  induction fuel generalizing prev cur with
  | zero => trivial
  | succ fuel ih =>
    cases cur with
    | none => trivial
    | some cur =>
      intro n _
      dsimp only
      by_cases h1 : GoEq.eq n.key key = true
      · rw [if_pos h1]; trivial
      · rw [if_neg h1]
        intro n' _
        dsimp only
        by_cases h2 : GoOrd.lt key n'.key = true
        · rw [if_pos h2]; trivial
        · rw [if_neg h2]; exact fun v _ => ih _ v

theorem quiet_findOuterO [GoOrd K] (fuel : Nat) (key : K) (i : Nat) (prev : Ref) : (sgFindOuterO fuel key i prev : SGThread K V _).Quiet sl := by
  induction i generalizing prev with
  | zero => trivial
  | succ i ih =>
    intro v _
    refine (quiet_findInnerO key i _ prev v).bind (fun a _ => ?_)
    cases a with
    | inl p => trivial
    | inr q => exact ih q

theorem quiet_doFindNode [GoOrd K] (fuel : Nat) (key : K) (eq : Bool) : (sgDoFindNode fuel key eq : SGThread K V _).Quiet sl := by
  show SGThread.Quiet sl (SGThread.bind _ _)
  refine (quiet_findOuterO fuel key sl.level .head).bind (fun a _ => ?_)
  cases a with
  | inl p => trivial
  | inr q =>
    cases eq with
    | true => trivial
    | false => exact fun v _ => trivial

theorem quiet_findInnerF (keyCmp : K → K → Int) (key : K) (i : Nat) (fuel : Nat) (prev : Ref) (cur : Option Nat) :
    (sgFindInnerF keyCmp key i fuel prev cur : SGThread K V _).Quiet sl := by
  induction fuel generalizing prev cur with
  | zero => trivial
  | succ fuel ih =>
    cases cur with
    | none => trivial
    | some cur =>
      intro n _
      dsimp only
      by_cases h1 : keyCmp n.key key = 0
      · rw [if_pos h1]; trivial
      · rw [if_neg h1]
        by_cases h2 : keyCmp n.key key > 0
        · rw [if_pos h2]; trivial
        · rw [if_neg h2]; exact fun v _ => ih _ v

theorem quiet_findOuterF (keyCmp : K → K → Int) (fuel : Nat) (key : K) (i : Nat) (prev : Ref) : (sgFindOuterF keyCmp fuel key i prev : SGThread K V _).Quiet sl := by
  induction i generalizing prev with
  | zero => trivial
  | succ i ih =>
    intro v _
    refine (quiet_findInnerF keyCmp key i _ prev v).bind (fun a _ => ?_)
    cases a with
    | inl p => trivial
    | inr q => exact ih q

theorem quiet_lowerBoundF (keyCmp : K → K → Int) (fuel : Nat) (key : K) : (sgLowerBoundF keyCmp fuel key : SGThread K V _).Quiet sl := by
  show SGThread.Quiet sl (SGThread.bind _ _)
  refine (quiet_findOuterF keyCmp fuel key sl.level .head).bind (fun a _ => ?_)
  cases a with
  | inl p => trivial
  | inr q => exact fun v _ => trivial

theorem quiet_findNode (impl : SLImpl K) (fuel : Nat) (key : K) : (sgFindNode impl fuel key : SGThread K V _).Quiet sl := by
  cases impl with
  | ordered o => exact quiet_doFindNode fuel key true
  | func keyCmp =>
    refine (quiet_lowerBoundF keyCmp fuel key).bind (fun a _ => ?_)
    cases a with
    | none => trivial
    | some p =>
      intro n _
      dsimp only
      by_cases h1 : keyCmp n.key key = 0
      · rw [if_pos h1]; trivial
      · rw [if_neg h1]; trivial

theorem quiet_lowerBound (impl : SLImpl K) (fuel : Nat) (key : K) : (sgLowerBound impl fuel key : SGThread K V _).Quiet sl := by
  cases impl with
  | ordered o => exact quiet_doFindNode fuel key false
  | func keyCmp => exact quiet_lowerBoundF keyCmp fuel key

theorem quiet_upperBound (impl : SLImpl K) (fuel : Nat) (key : K) : (sgUpperBound impl fuel key : SGThread K V _).Quiet sl := by
  cases impl with
  | ordered o =>
    refine (quiet_doFindNode fuel key false).bind (fun a _ => ?_)
    cases a with
    | none => trivial
    | some p =>
      intro n _
      dsimp only
      by_cases h1 : GoEq.eq n.key key = true
      · rw [if_pos h1]; exact fun v _ => trivial
      · rw [if_neg h1]; trivial
  | func keyCmp =>
    refine (quiet_lowerBoundF keyCmp fuel key).bind (fun a _ => ?_)
    cases a with
    | none => trivial
    | some p =>
      intro n _
      dsimp only
      by_cases h1 : keyCmp n.key key = 0
      · rw [if_pos h1]; exact fun v _ => trivial
      · rw [if_neg h1]; trivial

theorem quiet_keyOf (p : Option Nat) : (sgKeyOf p : SGThread K V (SGRet K V)).Quiet sl := by
  cases p with
  | none => trivial
  | some p => exact fun n _ => trivial

theorem within_forEachLoop (hR : ∀ p, p < sl.nodes.length → R p) (f : List (K × V) → SGThread K V α) (hf : ∀ l, (f l).Within sl R W) (fuel : Nat) (e : Option Nat) (l : List (K × V)) :
    ((sgForEachLoop fuel e l).bind f).Within sl R W := by
  induction fuel generalizing e l with
  | zero => trivial
  | succ fuel ih =>
    cases e with
    | none => exact hf l
    | some e =>
      intro n hn
      rcases sl.deref_cases e with ⟨_, _, _, he⟩ | ⟨_, he, _⟩
      · exact ⟨hR e he, fun v x _ => ih x _⟩
      · rw [he] at hn; exact nomatch hn

theorem within_forEachMutableLoop (hR : ∀ p, p < sl.nodes.length → R p) (hW : ∀ p, p < sl.nodes.length → W p) (g : K → V → V) (f : Unit → SGThread K V α)
    (hf : (f ()).Within sl R W) (fuel : Nat) (e : Option Nat) : ((sgForEachMutableLoop g fuel e).bind f).Within sl R W := by
  induction fuel generalizing e with
  | zero => trivial
  | succ fuel ih =>
    cases e with
    | none => exact hf
    | some e =>
      intro n hn
      rcases sl.deref_cases e with ⟨_, _, _, he⟩ | ⟨_, he, _⟩
      · exact ⟨hR e he, fun v => ⟨hW e he, fun x _ => ih x⟩⟩
      · rw [he] at hn; exact nomatch hn

end

theorem SGCall.within (impl : SLImpl K) (sl : SL K V) (c : SGCall K V) : (c.thread impl sl.nodes.length).Within sl (c.sees impl sl) (c.changes impl sl) := by
  have found : ∀ (k : K) (a : Option Nat), (sgFindNode impl sl.nodes.length k : SGThread K V _).run sl = .ok a sl → sl.find impl k = .ret a := by
    intro k a h
    rw [show _ = _ from looks_findNode impl k] at h
    show sl.findNode impl k = _
    cases e : sl.findNode impl k with
    | ret b => rw [e] at h; injection h with h; rw [h]
    | panic => rw [e] at h; exact nomatch h
    | diverge => rw [e] at h; exact nomatch h
  cases c with
  | find k =>
    refine (quiet_findNode impl _ k).bind (fun a ha => ?_)
    cases a with
    | none => trivial
    | some p => exact ⟨found k _ ha, fun v => trivial⟩
  | has k => exact (quiet_findNode impl _ k).bind (fun a _ => trivial)
  | update k f =>
    refine (quiet_findNode impl _ k).bind (fun a ha => ?_)
    cases a with
    | none => trivial
    | some p => exact ⟨found k _ ha, fun v => ⟨found k _ ha, trivial⟩⟩
  | lowerBound k => exact (quiet_lowerBound impl _ k).bind (fun a _ => quiet_keyOf a)
  | upperBound k => exact (quiet_upperBound impl _ k).bind (fun a _ => quiet_keyOf a)
  | len => trivial
  | forEach => exact fun e _ => within_forEachLoop (fun p h => h) (fun l => .ret (SGRet.entries l)) (fun l => trivial) _ e []
  | forEachMutable f => exact fun e _ => within_forEachMutableLoop (fun p h => h) (fun p h => h) f (fun _ => .ret SGRet.unit) trivial _ e

theorem SGCall.own (impl : SLImpl K) (sl : SL K V) (c : SGCall K V) {p : Nat} (h : c.changes impl sl p) : c.sees impl sl p := by
  cases c <;> first | exact h | exact h.elim

end Stl4go
