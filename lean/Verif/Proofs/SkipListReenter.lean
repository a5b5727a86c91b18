import Verif.Spec.SkipListReenter
import Verif.Proofs.SkipListMHist
/-! # Skip list whose compare function looks at the list -/
namespace Stl4go
variable {K V τ α β : Type}

/-- The list `sl` but for its scratch array, and the variables `t`. -/
abbrev withCache (sl : SL K V) (c : List (Option Ref)) (t : τ) : SLS K V τ := ⟨{ sl with prevsCache := c }, t⟩

/-- From `sl`, whatever the scratch array, `x` does what `g` does to the variables and leaves the list alone. -/
def ReadsAs (sl : SL K V) (x : GoM (SLS K V τ) α) (g : GoM τ α) : Prop := ∀ c t, x (withCache sl c t) = SLS.call g (withCache sl c t)

def Reads (sl : SL K V) (x : GoM (SLS K V τ) α) : Prop := ∃ g, ReadsAs sl x g

theorem Reads.pure (sl : SL K V) (a : α) : Reads sl (pure a : GoM (SLS K V τ) α) := ⟨Pure.pure a, fun _ _ => rfl⟩

theorem Reads.diverge (sl : SL K V) : Reads sl (GoM.diverge : GoM (SLS K V τ) α) := ⟨GoM.diverge, fun _ _ => rfl⟩

theorem Reads.bind {sl : SL K V} {x : GoM (SLS K V τ) α} {f : α → GoM (SLS K V τ) β} (hx : Reads sl x) (hf : ∀ a, Reads sl (f a)) :
    Reads sl (x >>= f) := by
  obtain ⟨g, hg⟩ := hx
  refine ⟨g >>= fun a => Classical.choose (hf a), fun c t => ?_⟩
  rw [GoM.bind_def, hg c t]
  simp only [SLS.call, GoM.bind_def]
  cases g t with
  | ok a t' => exact Classical.choose_spec (hf a) c t'
  | panic t' => rfl
  | diverge => rfl

theorem Reads.read {sl : SL K V} {f : SL K V → Outcome α} (h : ∀ c, f { sl with prevsCache := c } = f sl) : Reads sl (SLS.read f : GoM (SLS K V τ) α) := by
  refine ⟨fun t => match f sl with | .ret a => .ok a t | .panic => .panic t | .diverge => .diverge, fun c t => ?_⟩
  simp only [SLS.read, SLS.call, h c]
  cases f sl <;> rfl

/-- A read of the whole list, used only for what does not depend on the scratch array. -/
theorem Reads.read_list {sl : SL K V} {f : SL K V → GoM (SLS K V τ) β} (h : ∀ c, f { sl with prevsCache := c } = f sl) (hf : Reads sl (f sl)) :
    Reads sl (SLS.read .ret >>= f) := by
  obtain ⟨g, hg⟩ := hf
  refine ⟨g, fun c t => ?_⟩
  rw [GoM.bind_def]
  simp only [SLS.read]
  rw [h c]; exact hg c t

section
variable {sl : SL K V} {cmp : CmpR K V τ} (hr : ∀ a b, Reads sl (cmp a b)) {key : K}
include hr

theorem reads_lowerBoundInner (i : Nat) : ∀ (fuel : Nat) (prev : Ref) (cur : Option Nat), Reads sl (SLR.lowerBoundInner cmp key i fuel prev cur) := by
  intro fuel
  induction fuel with
  | zero => intro prev cur; exact .diverge sl
  | succ fuel ih =>
    intro prev cur
    cases cur with
    | none => exact .pure sl _
    | some cur =>
      refine .bind (.read fun _ => rfl) fun n => .bind (hr _ _) fun r => ?_
      split
      · exact .pure sl _
      · split
        · exact .pure sl _
        · exact .bind (.read fun _ => rfl) fun nx => ih _ _

theorem reads_lowerBoundOuter (n : Nat) : ∀ (i : Nat) (prev : Ref), Reads sl (SLR.lowerBoundOuter cmp key n i prev) := by
  intro i
  induction i with
  | zero => intro prev; exact .pure sl _
  | succ i ih =>
    intro prev
    refine .bind (.read fun _ => rfl) fun cur => .bind (reads_lowerBoundInner hr i _ _ _) fun r => ?_
    cases r with
    | inl p => exact .pure sl _
    | inr prev => exact ih prev

theorem reads_lowerBound : Reads sl (SLR.lowerBound cmp key) := by
  refine .read_list (fun _ => rfl) (.bind (reads_lowerBoundOuter hr _ _ _) fun r => ?_)
  cases r with
  | inl p => exact .pure sl _
  | inr prev => exact .read fun _ => rfl

theorem reads_findNode : Reads sl (SLR.findNode cmp key) := by
  refine .bind (reads_lowerBound hr) fun r => ?_
  cases r with
  | none => exact .pure sl _
  | some p =>
    refine .bind (.read fun _ => rfl) fun n => .bind (hr _ _) fun r => ?_
    split <;> exact .pure sl _

theorem reads_upperBound : Reads sl (SLR.upperBound cmp key) := by
  refine .bind (reads_lowerBound hr) fun r => ?_
  cases r with
  | none => exact .pure sl _
  | some p =>
    refine .bind (.read fun _ => rfl) fun n => .bind (hr _ _) fun r => ?_
    split
    · exact .read fun _ => rfl
    · exact .pure sl _

omit hr in
theorem observeIter_cache (it : SLIter) (c : List (Option Ref)) : SL.observeIter { sl with prevsCache := c } it = sl.observeIter it := by
  have : ∀ fuel it, SLIter.collect { sl with prevsCache := c } fuel it = SLIter.collect sl fuel it := by
    intro fuel
    induction fuel with
    | zero => intro it; rfl
    | succ fuel ih =>
      intro it
      simp only [SLIter.collect, ih]
      rfl
  exact this _ it

theorem reads_exec (rnd : Nat) (op : SMOp K V) (ho : op.Reading) : Reads sl (SLR.exec cmp rnd op) := by
  cases op with
  | insert k v => exact ho.elim
  | remove k => exact ho.elim
  | clear => exact ho.elim
  | update k v => exact ho.elim
  | find k =>
    refine .bind (reads_findNode hr) fun r => ?_
    cases r with
    | none => exact .pure sl _
    | some p => exact .read fun _ => rfl
  | has k => exact .bind (.bind (reads_findNode hr) fun r => .pure sl _) fun b => .pure sl _
  | len => rw [SLR.exec]; exact .read fun _ => rfl
  | isEmpty => rw [SLR.exec]; exact .read fun _ => rfl
  | iterate =>
    rw [SLR.exec]
    exact .read fun c => by simp only [observeIter_cache]; rfl
  | lowerBound k => exact .bind (.bind (reads_lowerBound hr) fun r => .pure sl _) fun it => .read fun c => by simp only [observeIter_cache]
  | upperBound k => exact .bind (.bind (reads_upperBound hr) fun r => .pure sl _) fun it => .read fun c => by simp only [observeIter_cache]

end

/-- Code that only looks at the list leaves it alone. -/
theorem reads_run {sl : SL K V} {exec : Nat → SMOp K V → GoM (SLS K V τ) (SMObs K V)} (he : ∀ rnd op, op.Reading → Reads sl (exec rnd op)) :
    ∀ (p : CmpCode K V τ), p.Calls SMOp.Reading → Reads sl (p.run exec) := by
  intro p
  induction p with
  | answer r t => intro _; exact ⟨fun _ => .ok r t, fun _ _ => rfl⟩
  | panics t => intro _; exact ⟨fun _ => .panic t, fun _ _ => rfl⟩
  | hangs => intro _; exact .diverge sl
  | call t rnd op next ih =>
    intro hp
    obtain ⟨g, hg⟩ := he rnd op hp.1
    have h := fun ob t => ih ob t (hp.2 ob t)
    refine ⟨fun _ => match g t with
      | .ok ob t => Classical.choose (h ob t) t
      | .panic t => Classical.choose (h .panicked t) t
      | .diverge => .diverge, fun c t0 => ?_⟩
    have e := hg c t
    simp only [SLS.call] at e
    simp only [CmpCode.run, SLS.call]
    rw [e]
    cases g t with
    | ok ob t => exact Classical.choose_spec (h ob t) c t
    | panic t => exact Classical.choose_spec (h .panicked t) c t
    | diverge => rfl

theorem reads_at {code : K → K → τ → CmpCode K V τ} (hcode : ∀ a b t, (code a b t).Calls SMOp.Reading) (sl : SL K V) :
    ∀ (d : Nat) (a b : K), Reads sl (CmpCode.at code d a b) := by
  intro d
  induction d with
  | zero => intro a b; exact .diverge sl
  | succ d ih =>
    intro a b
    have h := fun t => reads_run (sl := sl) (exec := SLR.exec (CmpCode.at code d)) (fun rnd op ho => reads_exec ih rnd op ho) (code a b t) (hcode a b t)
    exact ⟨fun t => Classical.choose (h t) t, fun c t => Classical.choose_spec (h t) c t⟩

/-! ## A compare function that only looks at the list is one that does not use it -/

/-- What the compare function does while the list is `sl`. -/
noncomputable def frozen {sl : SL K V} {cmp : CmpR K V τ} (hr : ∀ a b, Reads sl (cmp a b)) : CmpM K τ := fun a b => Classical.choose (hr a b)

theorem frozen_spec {sl : SL K V} {cmp : CmpR K V τ} (hr : ∀ a b, Reads sl (cmp a b)) (a b : K) : ReadsAs sl (cmp a b) (frozen hr a b) :=
  Classical.choose_spec (hr a b)

/-- `x` does the same as `y` from `sl`, whatever the scratch array, and then the list is `sl` but for the scratch array. -/
def Same (sl : SL K V) (x y : GoM (SLS K V τ) α) : Prop :=
  ∀ c t, x (withCache sl c t) = y (withCache sl c t) ∧ ∀ a s, y (withCache sl c t) = .ok a s → ∃ c' t', c'.length = c.length ∧ s = withCache sl c' t'

theorem Same.pure (sl : SL K V) (a : α) : Same sl (pure a : GoM (SLS K V τ) α) (pure a) :=
  fun c t => ⟨rfl, fun _ _ e => by injection e with _ e; exact ⟨c, t, rfl, e.symm⟩⟩

theorem Same.diverge (sl : SL K V) : Same sl (GoM.diverge : GoM (SLS K V τ) α) GoM.diverge := fun _ _ => ⟨rfl, fun _ _ e => nomatch e⟩

theorem Same.read (sl : SL K V) (f : SL K V → Outcome α) : Same sl (SLS.read f : GoM (SLS K V τ) α) (SLS.read f) := by
  refine fun c t => ⟨rfl, fun a s e => ⟨c, t, rfl, ?_⟩⟩
  simp only [SLS.read] at e
  split at e
  · injection e with _ e; exact e.symm
  · cases e
  · cases e

/-- The last step: it need not leave the list as it was. -/
theorem Same.last {sl : SL K V} {x y : GoM (SLS K V τ) α} {f g : α → GoM (SLS K V τ) β} (h : Same sl x y)
    (c : List (Option Ref)) (t : τ) (hf : ∀ a c' t, c'.length = c.length → f a (withCache sl c' t) = g a (withCache sl c' t)) :
    (x >>= f) (withCache sl c t) = (y >>= g) (withCache sl c t) := by
  rw [GoM.bind_def, GoM.bind_def, (h c t).1]
  cases e : y (withCache sl c t) with
  | ok a s =>
    obtain ⟨c', t', hl, rfl⟩ := (h c t).2 a s e
    exact hf a c' t' hl
  | panic s => rfl
  | diverge => rfl

theorem Same.bind {sl : SL K V} {x y : GoM (SLS K V τ) α} {f g : α → GoM (SLS K V τ) β} (h : Same sl x y) (hf : ∀ a, Same sl (f a) (g a)) :
    Same sl (x >>= f) (y >>= g) := by
  refine fun c t => ⟨h.last c t (fun a c t _ => (hf a c t).1), fun b s e => ?_⟩
  rw [GoM.bind_def] at e
  cases e' : y (withCache sl c t) with
  | ok a s' =>
    obtain ⟨c', t', hl, rfl⟩ := (h c t).2 a s' e'
    rw [e'] at e
    obtain ⟨c2, t2, hl2, rfl⟩ := (hf a c' t').2 b s e
    exact ⟨c2, t2, hl2.trans hl, rfl⟩
  | panic s' => rw [e'] at e; cases e
  | diverge => rw [e'] at e; cases e

theorem Same.setPrev (sl : SL K V) (level i : Nat) (prev : Ref) :
    Same sl (SLS.write (SL.setPrev level i prev) : GoM (SLS K V τ) Unit) (SLS.write (SL.setPrev level i prev)) := by
  refine fun c t => ⟨rfl, fun a s e => ?_⟩
  simp only [SLS.write, SL.setPrev] at e
  split at e
  · next hi =>
    split at hi
    · obtain ⟨c', h1, h2⟩ := Outcome.bind_ret hi
      injection h2 with h2; injection h2 with h2 h3
      injection e with _ e
      subst h2
      refine ⟨c', t, ?_, e.symm⟩
      rw [setIdx_ret h1, List.length_set]
    · cases hi
  · cases e
  · cases e

section
variable {sl : SL K V} {cmp : CmpR K V τ} (hr : ∀ a b, Reads sl (cmp a b)) {key : K}
include hr

theorem same_call (a b : K) : Same sl (cmp a b) (SLS.call (frozen hr a b)) := by
  refine fun c t => ⟨frozen_spec hr a b c t, fun r s e => ?_⟩
  simp only [SLS.call] at e
  split at e
  · next t' _ => injection e with _ e; exact ⟨c, t', rfl, e.symm⟩
  · cases e
  · cases e

theorem same_lowerBoundInner (i : Nat) : ∀ (fuel : Nat) (prev : Ref) (cur : Option Nat),
    Same sl (SLR.lowerBoundInner cmp key i fuel prev cur) (SLM.lowerBoundInner (frozen hr) key i fuel prev cur) := by
  intro fuel
  induction fuel with
  | zero => intro prev cur; exact .diverge sl
  | succ fuel ih =>
    intro prev cur
    cases cur with
    | none => exact .pure sl _
    | some cur =>
      refine .bind (.read sl _) fun n => .bind (same_call hr _ _) fun r => ?_
      split
      · exact .pure sl _
      · split
        · exact .pure sl _
        · exact .bind (.read sl _) fun nx => ih _ _

theorem same_lowerBoundOuter (n : Nat) : ∀ (i : Nat) (prev : Ref),
    Same sl (SLR.lowerBoundOuter cmp key n i prev) (SLM.lowerBoundOuter (frozen hr) key n i prev) := by
  intro i
  induction i with
  | zero => intro prev; exact .pure sl _
  | succ i ih =>
    intro prev
    refine .bind (.read sl _) fun cur => .bind (same_lowerBoundInner hr i _ _ _) fun r => ?_
    cases r with
    | inl p => exact .pure sl _
    | inr prev => exact ih prev

theorem same_lowerBound : Same sl (SLR.lowerBound cmp key) (SLM.lowerBound (frozen hr) key) := by
  refine .bind (.read sl _) fun s => .bind (same_lowerBoundOuter hr _ _ _) fun r => ?_
  cases r with
  | inl p => exact .pure sl _
  | inr prev => exact .read sl _

theorem same_findNode : Same sl (SLR.findNode cmp key) (SLM.findNode (frozen hr) key) := by
  refine .bind (same_lowerBound hr) fun r => ?_
  cases r with
  | none => exact .pure sl _
  | some p =>
    refine .bind (.read sl _) fun n => .bind (same_call hr _ _) fun r => ?_
    split <;> exact .pure sl _

theorem same_upperBound : Same sl (SLR.upperBound cmp key) (SLM.upperBound (frozen hr) key) := by
  refine .bind (same_lowerBound hr) fun r => ?_
  cases r with
  | none => exact .pure sl _
  | some p =>
    refine .bind (.read sl _) fun n => .bind (same_call hr _ _) fun r => ?_
    split
    · exact .read sl _
    · exact .pure sl _

theorem same_findInsertInner (i : Nat) : ∀ (fuel : Nat) (prev : Ref) (cur : Option Nat),
    Same sl (SLR.findInsertInner cmp key i fuel prev cur) (SLM.findInsertInner (frozen hr) key i fuel prev cur) := by
  intro fuel
  induction fuel with
  | zero => intro prev cur; exact .diverge sl
  | succ fuel ih =>
    intro prev cur
    cases cur with
    | none => exact .pure sl _
    | some cur =>
      refine .bind (.read sl _) fun n => .bind (same_call hr _ _) fun r => ?_
      split
      · exact .pure sl _
      · split
        · exact .pure sl _
        · exact .bind (.read sl _) fun nx => ih _ _

theorem same_findInsertOuter (n level : Nat) : ∀ (i : Nat) (prev : Ref),
    Same sl (SLR.findInsertOuter cmp key n level i prev) (SLM.findInsertOuter (frozen hr) key n level i prev) := by
  intro i
  induction i with
  | zero => intro prev; exact .pure sl _
  | succ i ih =>
    intro prev
    refine .bind (.read sl _) fun cur => .bind (same_findInsertInner hr i _ _ _) fun r => ?_
    cases r with
    | inl p => exact .pure sl _
    | inr prev => exact .bind (.setPrev sl _ _ _) fun _ => ih prev

theorem same_findPrevInner (i : Nat) : ∀ (fuel : Nat) (prev : Ref) (cur : Option Nat),
    Same sl (SLR.findPrevInner cmp key i fuel prev cur) (SLM.findPrevInner (frozen hr) key i fuel prev cur) := by
  intro fuel
  induction fuel with
  | zero => intro prev cur; exact .diverge sl
  | succ fuel ih =>
    intro prev cur
    cases cur with
    | none => exact .pure sl _
    | some cur =>
      refine .bind (.read sl _) fun n => .bind (same_call hr _ _) fun r => ?_
      split
      · exact .pure sl _
      · exact .bind (.read sl _) fun nx => ih _ _

theorem same_findPrevOuter (n level : Nat) : ∀ (i : Nat) (prev : Ref),
    Same sl (SLR.findPrevOuter cmp key n level i prev) (SLM.findPrevOuter (frozen hr) key n level i prev) := by
  intro i
  induction i with
  | zero => intro prev; exact .pure sl _
  | succ i ih =>
    intro prev
    exact .bind (.read sl _) fun cur => .bind (same_findPrevInner hr i _ _ _) fun prev => .bind (.setPrev sl _ _ _) fun _ => ih prev

theorem findInsertPoint_same : Same sl (SLR.findInsertPoint cmp key) (SLM.findInsertPoint (frozen hr) key) := by
  intro c t
  simp only [SLR.findInsertPoint, SLM.findInsertPoint, GoM.bind_def, SLS.read, SL.prevsSlice]
  by_cases hl : sl.level ≤ c.length
  · simp only [hl, if_true, List.length_take, Nat.min_eq_left hl]
    have h := same_findInsertOuter hr (key := key) sl.nodes.length sl.level sl.level .head c t
    rw [h.1]
    cases e : SLM.findInsertOuter (frozen hr) key sl.nodes.length sl.level sl.level .head (withCache sl c t) with
    | ok r s =>
      obtain ⟨c', t', hc, rfl⟩ := h.2 r s e
      cases r with
      | none =>
        have hl' : sl.level ≤ c'.length := by omega
        simp only [GoM.bind_def, SLS.read, SL.prevsSlice, hl', if_true]
        exact ⟨trivial, fun a s e => by injection e with _ e; exact ⟨c', t', hc, e.symm⟩⟩
      | some p => exact ⟨rfl, fun a s e => by injection e with _ e; exact ⟨c', t', hc, e.symm⟩⟩
    | panic s => exact ⟨rfl, fun a s e => by cases e⟩
    | diverge => exact ⟨rfl, fun a s e => by cases e⟩
  · simp only [hl, if_false]
    exact ⟨trivial, fun a s e => nomatch e⟩

theorem findPrevNodes_same : Same sl (SLR.findPrevNodes cmp key) (SLM.findPrevNodes (frozen hr) key) := by
  intro c t
  simp only [SLR.findPrevNodes, SLM.findPrevNodes, GoM.bind_def, SLS.read, SL.prevsSlice]
  by_cases hl : sl.level ≤ c.length
  · simp only [hl, if_true, List.length_take, Nat.min_eq_left hl]
    have h := same_findPrevOuter hr (key := key) sl.nodes.length sl.level sl.level .head c t
    rw [h.1]
    cases e : SLM.findPrevOuter (frozen hr) key sl.nodes.length sl.level sl.level .head (withCache sl c t) with
    | ok r s =>
      obtain ⟨c', t', hc, rfl⟩ := h.2 r s e
      have hl' : sl.level ≤ c'.length := by omega
      simp only [hl', if_true]
      exact ⟨trivial, fun a s e => by injection e with _ e; exact ⟨c', t', hc, e.symm⟩⟩
    | panic s => exact ⟨rfl, fun a s e => by cases e⟩
    | diverge => exact ⟨rfl, fun a s e => by cases e⟩
  · simp only [hl, if_false]
    exact ⟨trivial, fun a s e => nomatch e⟩

theorem findRemovePoint_same : Same sl (SLR.findRemovePoint cmp key) (SLM.findRemovePoint (frozen hr) key) := by
  refine .bind (findPrevNodes_same hr) fun prevs => .bind (.read sl _) fun node => ?_
  cases node with
  | none => exact .pure sl _
  | some p =>
    refine .bind (.read sl _) fun n => .bind (same_call hr _ _) fun r => ?_
    split <;> exact .pure sl _

/-- An operation with a compare function that only looks at the list is the operation with a compare function that has nothing to do with the list. -/
theorem exec_frozen (rnd : Nat) (op : SMOp K V) (c : List (Option Ref)) (t : τ) :
    SLR.exec cmp rnd op (withCache sl c t) = SLM.exec (frozen hr) rnd op (withCache sl c t) := by
  cases op with
  | insert k v =>
    simp only [SLR.exec, SLM.exec, SLR.insert, SLM.insert, GoM.bind_def]
    have h := (findInsertPoint_same hr (key := k)) c t
    rw [h.1]
  | remove k =>
    simp only [SLR.exec, SLM.exec, SLR.remove, SLM.remove, GoM.bind_def]
    have h := (findRemovePoint_same hr (key := k)) c t
    rw [h.1]
  | clear => rfl
  | update k v => exact (same_findNode hr).last c t fun a c t _ => rfl
  | find k => exact (same_findNode hr).last c t fun a c t _ => rfl
  | has k => exact (Same.bind (same_findNode hr) fun r => .pure sl _).last c t fun a c t _ => rfl
  | len => rfl
  | isEmpty => rfl
  | iterate => rfl
  | lowerBound k => exact (Same.bind (same_lowerBound hr) fun r => .pure sl _).last c t fun a c t _ => rfl
  | upperBound k => exact (Same.bind (same_upperBound hr) fun r => .pure sl _).last c t fun a c t _ => rfl

end

/-! ## Answers, panics and the guard -/

section
variable {code : K → K → τ → CmpCode K V τ} {c : K → K → Int}

theorem run_answers {exec : Nat → SMOp K V → GoM (SLS K V τ) (SMObs K V)} {x : Int} :
    ∀ (p : CmpCode K V τ), p.Answers x → ∀ {s s' : SLS K V τ} {r : Int}, p.run exec s = .ok r s' → r.sign = x := by
  intro p
  induction p with
  | answer r t => intro h s s' r' e; injection e with e _; rw [← e]; exact h
  | panics t => intro _ s s' r' e; cases e
  | hangs => intro _ s s' r' e; cases e
  | call t rnd op next ih =>
    intro h s s' r' e
    simp only [CmpCode.run] at e
    split at e
    · exact ih _ _ (h _ _) e
    · exact ih _ _ (h _ _) e
    · cases e

theorem run_panics {exec : Nat → SMOp K V → GoM (SLS K V τ) (SMObs K V)} :
    ∀ (p : CmpCode K V τ) {s s' : SLS K V τ}, p.run exec s = .panic s' → p.CanPanic := by
  intro p
  induction p with
  | answer r t => intro s s' e; cases e
  | panics t => intro s s' _; trivial
  | hangs => intro s s' e; cases e
  | call t rnd op next ih =>
    intro s s' e
    simp only [CmpCode.run] at e
    split at e
    · exact ⟨_, _, ih _ _ e⟩
    · exact ⟨_, _, ih _ _ e⟩
    · cases e

variable {sl : SL K V} {cmp : CmpR K V τ}

theorem frozen_eq (hr : ∀ a b, Reads sl (cmp a b)) (a b : K) (t : τ) : cmp a b ⟨sl, t⟩ = SLS.call (frozen hr a b) ⟨sl, t⟩ :=
  frozen_spec hr a b sl.prevsCache t

theorem frozen_ok (hr : ∀ a b, Reads sl (cmp a b)) {a b : K} {t t' : τ} {r : Int} (h : frozen hr a b t = .ok r t') :
    cmp a b ⟨sl, t⟩ = .ok r ⟨sl, t'⟩ := by rw [frozen_eq hr, SLS.call, h]

theorem frozen_panic (hr : ∀ a b, Reads sl (cmp a b)) {a b : K} {t t' : τ} (h : frozen hr a b t = .panic t') :
    cmp a b ⟨sl, t⟩ = .panic ⟨sl, t'⟩ := by rw [frozen_eq hr, SLS.call, h]

theorem frozen_agrees (ha : ∀ a b t, (code a b t).Answers (c a b).sign) (d : Nat) (hr : ∀ a b, Reads sl (CmpCode.at code d a b)) :
    AgreesWith (frozen hr) c := by
  intro a b t r t' e
  have := frozen_ok hr e
  cases d with
  | zero => cases this
  | succ d => exact run_answers _ (ha a b t) this

/-- Histories with code that only looks at the list. -/
theorem SLR.run_fallible (hc : LawfulCmp c) (hcode : ∀ a b t, (code a b t).Calls SMOp.Reading) (ha : ∀ a b t, (code a b t).Answers (c a b).sign)
    (d : Nat) (h : List (Nat × SMOp K V)) :
    ∀ {sl : SL K V} {ids : List Nat} {m : List (K × V)} (t : τ), SLInv (SLImpl.func c).less sl ids m →
      ∃ ids' m', FallibleRun (fun m op ob m' => SMap.step (SLImpl.func c).less m op = (ob, m'))
          (fun op => ∃ k a t, op.key? = some k ∧ (code a k t).CanPanic) (fun op => op.key?.isSome = true) m (opsOf h)
          (SLR.run (CmpCode.at code d) ⟨sl, t⟩ h).1 m' ∧
        SLInv (SLImpl.func c).less (SLR.run (CmpCode.at code d) ⟨sl, t⟩ h).2.sl ids' m' := by
  have hl : (SLImpl.func c).Lawful := hc
  induction h with
  | nil => intro sl ids m t hi; exact ⟨ids, m, .nil m, hi⟩
  | cons o h ih =>
    intro sl ids m t hi
    obtain ⟨rnd, op⟩ := o
    obtain ⟨sl1, ids1, a1, a2⟩ := hi.exec hl rnd op
    have hr := reads_at hcode sl d
    have hf := exec_follows (frozen_agrees ha d hr) t a1
    have hcall := (hi.opCalls c op).1
    have he : SLR.exec (CmpCode.at code d) rnd op ⟨sl, t⟩ = SLM.exec (frozen hr) rnd op ⟨sl, t⟩ := exec_frozen hr rnd op sl.prevsCache t
    have hops : opsOf ((rnd, op) :: h) = op :: opsOf h := rfl
    simp only [Follows] at hf
    simp only [SLR.run, he, hops]
    cases hcs : callAll (frozen hr) (opCalls c sl op) t with
    | ok u t' =>
      simp only [hcs] at hf
      simp only [hf]
      obtain ⟨ids', m', b1, b2⟩ := ih t' a2
      exact ⟨ids', m', .done rfl b1, b2⟩
    | panic t' =>
      simp only [hcs] at hf
      obtain ⟨cache, hcl, hf⟩ := hf
      simp only [hf]
      obtain ⟨ids', m', b1, b2⟩ := ih t' (hi.cache hcl)
      refine ⟨ids', m', .failed ?_ b1, b2⟩
      obtain ⟨p, hp, s, s', hx⟩ := callAll_panic hcs
      have := frozen_panic hr hx
      refine ⟨p.2, p.1, s, (hcall p hp).1, ?_⟩
      cases d with
      | zero => cases this
      | succ d => exact run_panics _ this
    | diverge =>
      simp only [hcs] at hf
      simp only [hf]
      refine ⟨ids, m, .hung ?_, hi⟩
      obtain ⟨p, hp, s, hx⟩ := callAll_diverge hcs
      rw [(hcall p hp).1]; rfl

/-! ## `FindRange` -/

theorem same_findRange (hr : ∀ a b, Reads sl (cmp a b)) (first last : K) : Same sl (SLR.findRange cmp first last) (SLM.findRange (frozen hr) first last) :=
  .bind (same_lowerBound hr) fun _ => .bind (same_upperBound hr) fun _ => .pure sl _

/-! ## The guard -/

theorem callAll_guarded {cmp : CmpM K τ} {guard : τ → Nat} {R : Nat} (h : ∀ a b t, guard t ≤ R → ∃ r t', cmp a b t = .ok r t' ∧ guard t' ≤ R) :
    ∀ (ps : List (K × K)) (t : τ), guard t ≤ R → ∃ t', callAll cmp ps t = .ok () t' ∧ guard t' ≤ R := by
  intro ps
  induction ps with
  | nil => intro t ht; exact ⟨t, rfl, ht⟩
  | cons p ps ih =>
    intro t ht
    obtain ⟨r, t1, h1, h2⟩ := h p.1 p.2 t ht
    obtain ⟨t2, h3, h4⟩ := ih t1 h2
    exact ⟨t2, by simp only [callAll, GoM.bind_def, h1, h3], h4⟩

theorem SMap.step_panicked_ne (less : K → K → Bool) (m : List (K × V)) (op : SMOp K V) : (SMap.step less m op).1 ≠ .panicked := by
  cases op <;> simp [SMap.step]

theorem frozen_guarded {guard : τ → Nat} {R : Nat} (hr : ∀ a b, Reads sl (cmp a b))
    (hg : ∀ a b t, guard t ≤ R → ∃ r t', cmp a b ⟨sl, t⟩ = .ok r ⟨sl, t'⟩ ∧ guard t' ≤ R) (a b : K) (t : τ) (ht : guard t ≤ R) :
    ∃ r t', frozen hr a b t = .ok r t' ∧ guard t' ≤ R := by
  obtain ⟨r, t', h1, h2⟩ := hg a b t ht
  rw [frozen_eq hr] at h1
  simp only [SLS.call] at h1
  split at h1
  · next e =>
    injection h1 with h3 h4
    injection h4 with _ h4
    subst h3 h4
    exact ⟨_, _, e, h2⟩
  · cases h1
  · cases h1

theorem findRange_guarded {guard : τ → Nat} (hc : LawfulCmp c) {ids : List Nat} {m : List (K × V)} (hi : SLInv (SLImpl.func c).less sl ids m)
    (hr : ∀ a b, Reads sl (cmp a b)) (ha : AgreesWith (frozen hr) c) {R : Nat}
    (hg : ∀ a b t, guard t ≤ R → ∃ r t', cmp a b ⟨sl, t⟩ = .ok r ⟨sl, t'⟩ ∧ guard t' ≤ R) (first last : K) {t : τ} (ht : guard t ≤ R) :
    ∃ it s, SLM.findRange (frozen hr) first last ⟨sl, t⟩ = .ok it s := by
  have hl : (SLImpl.func c).Lawful := hc
  have hg' := frozen_guarded hr hg
  obtain ⟨_, _, _, _, _, _, p1⟩ := hi.pos hl first
  obtain ⟨_, _, _, _, _, _, p2⟩ := hi.pos hl last
  obtain ⟨t1, c1, g1⟩ := callAll_guarded hg' (lowerCalls c first sl) t ht
  obtain ⟨t2, c2, _⟩ := callAll_guarded hg' (nodeCalls c last sl) t1 g1
  have f1 := lowerBound_follows ha t (hi.lowerBound hl p1)
  have f2 := upperBound_follows ha t1 (hi.upperBound hl p2)
  simp only [Follows, c1] at f1
  simp only [Follows, c2] at f2
  simp only [SLM.findRange, GoM.bind_def, f1, f2]
  exact ⟨_, _, rfl⟩

/-- An operation on a good list, if the calls of the compare function return. -/
theorem SLR.exec_guarded {guard : τ → Nat} (hc : LawfulCmp c) {ids : List Nat} {m : List (K × V)} (hi : SLInv (SLImpl.func c).less sl ids m)
    (hr : ∀ a b, Reads sl (cmp a b)) (ha : AgreesWith (frozen hr) c) {R : Nat}
    (hg : ∀ a b t, guard t ≤ R → ∃ r t', cmp a b ⟨sl, t⟩ = .ok r ⟨sl, t'⟩ ∧ guard t' ≤ R) (rnd : Nat) (op : SMOp K V) (t : τ) (ht : guard t ≤ R) :
    ∃ sl' ids' t', SLR.exec cmp rnd op ⟨sl, t⟩ = .ok (SMap.step (SLImpl.func c).less m op).1 ⟨sl', t'⟩ ∧
      SLInv (SLImpl.func c).less sl' ids' (SMap.step (SLImpl.func c).less m op).2 ∧ guard t' ≤ R := by
  have hl : (SLImpl.func c).Lawful := hc
  obtain ⟨sl1, ids1, a1, a2⟩ := hi.exec hl rnd op
  have hf := exec_follows ha t a1
  have hg' := frozen_guarded hr hg
  obtain ⟨t', h1, h2⟩ := callAll_guarded hg' (opCalls c sl op) t ht
  simp only [Follows, h1] at hf
  exact ⟨sl1, ids1, t', (exec_frozen hr rnd op sl.prevsCache t).trans hf, a2, h2⟩

theorem at_guarded {guard : τ → Nat} (hc : LawfulCmp c) (hcode : ∀ a b t, (code a b t).Calls SMOp.Reading)
    (ha : ∀ a b t, (code a b t).Answers (c a b).sign) (hg : ∀ a b t, (code a b t).Guarded guard (guard t)) :
    ∀ (d : Nat) {sl : SL K V} {ids : List Nat} {m : List (K × V)}, SLInv (SLImpl.func c).less sl ids m → ∀ (a b : K) (t : τ), guard t < d →
      ∃ r t', CmpCode.at code d a b ⟨sl, t⟩ = .ok r ⟨sl, t'⟩ ∧ guard t' ≤ guard t := by
  intro d
  induction d with
  | zero => intro sl ids m _ a b t ht; omega
  | succ d ih =>
    intro sl ids m hi a b t ht
    have hr := reads_at hcode sl d
    have hag := frozen_agrees ha d hr
    have key : ∀ (p : CmpCode K V τ), p.Calls SMOp.Reading → p.Guarded guard (guard t) → ∀ t1,
        ∃ r t', p.run (SLR.exec (CmpCode.at code d)) ⟨sl, t1⟩ = .ok r ⟨sl, t'⟩ ∧ guard t' ≤ guard t := by
      intro p
      induction p with
      | answer r t' => intro _ hp t1; exact ⟨r, t', rfl, hp⟩
      | panics _ => intro _ hp; exact hp.elim
      | hangs => intro _ hp; exact hp.elim
      | call t2 rnd op next ihp =>
        intro hp1 hp2 t1
        obtain ⟨sl', ids', t3, e, _, h3⟩ := SLR.exec_guarded (guard := guard) hc hi hr hag (R := guard t2)
          (fun a b t' ht' => by
            obtain ⟨r, t'', h1, h2⟩ := ih hi a b t' (by have := hp2.1; omega)
            exact ⟨r, t'', h1, by omega⟩) rnd op t2 (Nat.le_refl _)
        obtain ⟨g, hgr⟩ := reads_exec hr rnd op hp1.1
        have e2 := hgr sl.prevsCache t2
        have : sl' = sl := by
          have e3 := e.symm.trans e2
          simp only [SLS.call] at e3
          split at e3
          · injection e3 with _ e3; injection e3
          · cases e3
          · cases e3
        subst this
        obtain ⟨r, t', h4, h5⟩ := ihp _ t3 (hp1.2 _ _) (hp2.2 _ t3 (SMap.step_panicked_ne _ _ _) h3) t3
        exact ⟨r, t', by simp only [CmpCode.run, e]; exact h4, h5⟩
    exact key _ (hcode a b t) (hg a b t) t

theorem SLR.run_guarded {guard : τ → Nat} (hc : LawfulCmp c) (hcode : ∀ a b t, (code a b t).Calls SMOp.Reading)
    (ha : ∀ a b t, (code a b t).Answers (c a b).sign) (hg : ∀ a b t, (code a b t).Guarded guard (guard t)) {d : Nat} (h : List (Nat × SMOp K V)) :
    ∀ {sl : SL K V} {ids : List Nat} {m : List (K × V)} (t : τ), SLInv (SLImpl.func c).less sl ids m → guard t < d →
      (SLR.run (CmpCode.at code d) ⟨sl, t⟩ h).1 = (SMap.run (SLImpl.func c).less m (opsOf h)).1 := by
  induction h with
  | nil => intro sl ids m t _ _; rfl
  | cons o h ih =>
    intro sl ids m t hi ht
    obtain ⟨rnd, op⟩ := o
    have hr := reads_at hcode sl d
    obtain ⟨sl', ids', t', h1, h2, h3⟩ := SLR.exec_guarded (guard := guard) hc hi hr (frozen_agrees ha d hr) (R := guard t)
      (fun a b t' ht' => by
        obtain ⟨r, t'', h1, h2⟩ := at_guarded hc hcode ha hg d hi a b t' (by omega)
        exact ⟨r, t'', h1, by omega⟩) rnd op t (Nat.le_refl _)
    simp only [SLR.run, h1]
    rw [ih t' h2 (by omega)]
    rfl

/-! ## Without a guard -/

theorem outerKeys_ne_nil {ids : List Nat} (L : Linked sl.get sl.lvl ids) (hpos : ∀ q ∈ ids, 0 < sl.lvl q) (hne : ids ≠ []) {dec : K → Dec} :
    ∀ (i : Nat), 0 < i → i ≤ 40 → outerKeys dec sl i .head ≠ [] := by
  intro i
  induction i with
  | zero => intro h; omega
  | succ i ih =>
    intro _ hi
    have hn : sl.nextAt .head i = .ret (firstAt sl.lvl i ids) := RefAt.next L (.inl ⟨rfl, rfl⟩ : RefAt sl.lvl i [] .head) (by omega) rfl
    simp only [outerKeys, hn]
    cases e : firstAt sl.lvl i ids with
    | some p =>
      obtain ⟨P, Q, _, hip, _⟩ := firstAt_some e
      obtain ⟨⟨k, v⟩, hkv⟩ := SL.kv_of_lvl (sl := sl) (p := p) (by omega)
      obtain ⟨n, hnn, _, _⟩ := SL.kv_some hkv
      have hd : sl.deref p = .ret n := idx_of_get hnn
      simp [walkKeys, hd]
    | none =>
      cases i with
      | zero =>
        cases ids with
        | nil => exact (hne rfl).elim
        | cons p ids =>
          have := hpos p (by simp)
          simp [firstAt, this] at e
      | succ i =>
        simp only [walkKeys, walk, List.nil_append]
        exact ih (by omega) (by omega)

theorem opCalls_ne_nil {ids : List Nat} {m : List (K × V)} {less : K → K → Bool} (hi : SLInv less sl ids m) (hne : m ≠ []) (op : SMOp K V)
    (ho : op.key?.isSome = true) : opCalls c sl op ≠ [] := by
  have hids : ids ≠ [] := by
    intro e; subst e
    have := hi.len_eq; have := hi.len_m
    cases m with
    | nil => exact hne rfl
    | cons _ _ => simp_all
  have h : ∀ dec : K → Dec, outerKeys dec sl sl.level .head ≠ [] := fun dec => outerKeys_ne_nil hi.linked hi.lvl_pos hids _ hi.level_pos hi.level_le
  have hl : ∀ k, lowerCalls c k sl ≠ [] := by
    intro k e
    simp only [lowerCalls, withKey, List.map_eq_nil_iff] at e
    exact h _ e
  have hn : ∀ k, nodeCalls c k sl ≠ [] := by
    intro k e
    exact hl k (List.append_eq_nil_iff.1 e).1
  cases op with
  | insert k v => exact hl k
  | remove k =>
    intro e
    have := (List.append_eq_nil_iff.1 e).1
    simp only [withKey, List.map_eq_nil_iff] at this
    exact h _ this
  | lowerBound k => exact hl k
  | update k v => exact hn k
  | find k => exact hn k
  | has k => exact hn k
  | upperBound k => exact hn k
  | _ => cases ho

/-- If no call of the compare function returns, neither does an operation with a key, on a list that is not empty. -/
theorem exec_stuck {ids : List Nat} {m : List (K × V)} (hc : LawfulCmp c) (hi : SLInv (SLImpl.func c).less sl ids m) (hne : m ≠ [])
    (hr : ∀ a b, Reads sl (cmp a b)) (hs : ∀ a b t, cmp a b ⟨sl, t⟩ = .diverge) (rnd : Nat) (op : SMOp K V) (ho : op.key?.isSome = true) (t : τ) :
    SLR.exec cmp rnd op ⟨sl, t⟩ = .diverge := by
  have hdiv : ∀ a b t, frozen hr a b t = .diverge := by
    intro a b t
    have := hs a b t
    rw [frozen_eq hr] at this
    simp only [SLS.call] at this
    split at this
    · cases this
    · cases this
    · assumption
  have ha : AgreesWith (frozen hr) c := by intro a b t r t' e; rw [hdiv] at e; cases e
  obtain ⟨sl1, ids1, a1, _⟩ := hi.exec (impl := .func c) hc rnd op
  have hf := exec_follows ha t a1
  have hcs : callAll (frozen hr) (opCalls c sl op) t = .diverge := by
    cases e : opCalls c sl op with
    | nil => exact (opCalls_ne_nil (c := c) hi hne op ho e).elim
    | cons p ps => simp only [callAll, GoM.bind_def, hdiv]
  simp only [Follows, hcs] at hf
  exact (exec_frozen hr rnd op sl.prevsCache t).trans hf

/-- Code that always looks up something in its list never returns, if the list is not empty. -/
theorem at_recurs (hcode : ∀ a b t, (code a b t).Calls SMOp.Reading) (hrec : ∀ a b t, (code a b t).Recurs) {ids : List Nat} {m : List (K × V)}
    (hc : LawfulCmp c) (hi : SLInv (SLImpl.func c).less sl ids m) (hne : m ≠ []) : ∀ (d : Nat) (a b : K) (t : τ), CmpCode.at code d a b ⟨sl, t⟩ = .diverge := by
  intro d
  induction d with
  | zero => intro a b t; rfl
  | succ d ih =>
    intro a b t
    have hx := hrec a b t
    simp only [CmpCode.at]
    cases e : code a b t with
    | answer r t => rw [e] at hx; exact hx.elim
    | panics t => rw [e] at hx; exact hx.elim
    | hangs => rfl
    | call t1 rnd op next =>
      rw [e] at hx
      simp only [CmpCode.run, exec_stuck hc hi hne (reads_at hcode sl d) ih rnd op hx t1]

end
end Stl4go
