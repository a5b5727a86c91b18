import Verif.Model.SkipListLocked
import Verif.Spec.SkipListThreads
import Verif.Spec.Locked
import Verif.Proofs.SkipListM
import Verif.Proofs.SkipListUpdate
import Verif.Proofs.SkipListThreadCalls
/-! # Lemmas for C181: `Insert`, `Remove` and `Clear` access by access do what they do in one step -/
namespace Stl4go
variable {K V α β σ : Type}

/-- All of it, without the memory that a panic leaves. -/
def Steps.runO (p : Steps σ α) (s : σ) : Outcome (α × σ) := (p.run s).pair

theorem Steps.run_bind (p : Steps σ α) (f : α → Steps σ β) (s : σ) : (p >>= f).run s = (p.run >>= fun a => (f a).run) s := by
  rw [GoM.bind_def]
  induction p generalizing s with
  | ret a => rfl
  | panic => rfl
  | diverge => rfl
  | act next upd ih => exact ih s (upd s)

theorem Steps.runO_bind (p : Steps σ α) (f : α → Steps σ β) (s : σ) : (p >>= f).runO s = (p.runO s >>= fun r => (f r.1).runO r.2) := by
  rw [Steps.runO, Steps.run_bind, GoM.bind_def]
  simp only [Steps.runO]
  cases p.run s <;> rfl

theorem Steps.runO_ret (a : α) (s : σ) : (Steps.ret a).runO s = .ret (a, s) := rfl
theorem Steps.runO_pure (a : α) (s : σ) : (pure a : Steps σ α).runO s = .ret (a, s) := rfl
theorem Steps.runO_diverge (s : σ) : (Steps.diverge : Steps σ α).runO s = .diverge := rfl

theorem Steps.runO_look (f : σ → Outcome α) (s : σ) : (Steps.look f).runO s = (f s >>= fun a => .ret (a, s)) := by
  simp only [Steps.look, Steps.runO, Steps.run]
  cases f s <;> rfl

theorem Steps.runO_change (f : σ → Outcome (σ × α)) (s : σ) : (Steps.change f).runO s = (f s >>= fun r => .ret (r.2, r.1)) := by
  simp only [Steps.change, Steps.runO, Steps.run]
  cases f s <;> rfl

theorem Steps.runO_ite {c : Prop} [Decidable c] (p q : Steps σ α) (s : σ) : (if c then p else q).runO s = if c then p.runO s else q.runO s := by
  by_cases h : c
  · rw [if_pos h, if_pos h]
  · rw [if_neg h, if_neg h]

theorem Outcome.bind_assoc' {γ : Type} (x : Outcome α) (f : α → Outcome β) (g : β → Outcome γ) : (x >>= f >>= g) = (x >>= fun a => f a >>= g) := by cases x <;> rfl

theorem Outcome.bind_congr_ret {x : Outcome α} {f g : α → Outcome β} (h : ∀ a, x = .ret a → f a = g a) : (x >>= f) = (x >>= g) := by
  cases x with
  | ret a => exact h a rfl
  | panic => rfl
  | diverge => rfl

theorem Outcome.bind_ite {c : Prop} [Decidable c] (x y : Outcome α) (f : α → Outcome β) : ((if c then x else y) >>= f) = if c then x >>= f else y >>= f := by
  by_cases h : c
  · rw [if_pos h, if_pos h]
  · rw [if_neg h, if_neg h]

/-! ## Search of `Insert` -/

theorem lkInsertInnerO_run [GoOrd K] (sl : SL K V) (c : List (Option Ref)) (key : K) (i fuel : Nat) (prev : Ref) (next : Option Nat) :
    (lkInsertInnerO key i fuel prev next).runO { sl with prevsCache := c } = (sl.findInsertInnerO key i fuel prev next >>= fun r => .ret (r, { sl with prevsCache := c })) := by
  induction fuel generalizing prev next with
  | zero => rfl
  | succ fuel ih =>
    cases next with
    | none => rfl
    | some p =>
      simp only [lkInsertInnerO, SL.findInsertInnerO, lkKey, lkNext, Steps.runO_bind, Steps.runO_look, SL.deref_cache, SL.nextAt]
      cases hd : sl.deref p with
      | ret n =>
        simp only [Outcome.ret_bind, Outcome.pure_eq, Steps.runO_ite, Steps.runO_ret, Steps.runO_bind, Steps.runO_look, SL.deref_cache, hd]
        by_cases h1 : GoEq.eq n.key key = true
        · rw [if_pos h1, if_pos h1]; rfl
        · rw [if_neg h1, if_neg h1]
          by_cases h2 : GoOrd.lt key n.key = true
          · rw [if_pos h2, if_pos h2]; rfl
          · rw [if_neg h2, if_neg h2]
            cases idx n.next i with
            | ret nx => exact ih (.node p) nx
            | panic => rfl
            | diverge => rfl
      | panic => rfl
      | diverge => rfl

theorem lkInsertInnerF_run (keyCmp : K → K → Int) (sl : SL K V) (c : List (Option Ref)) (key : K) (i fuel : Nat) (prev : Ref) (next : Option Nat) :
    (lkInsertInnerF keyCmp key i fuel prev next).runO { sl with prevsCache := c } = (SL.findInsertInnerF keyCmp sl key i fuel prev next >>= fun r => .ret (r, { sl with prevsCache := c })) := by
  induction fuel generalizing prev next with
  | zero => rfl
  | succ fuel ih =>
    cases next with
    | none => rfl
    | some p =>
      simp only [lkInsertInnerF, SL.findInsertInnerF, lkKey, lkNext, Steps.runO_bind, Steps.runO_look, SL.deref_cache]
      cases hd : sl.deref p with
      | ret n =>
        simp only [Outcome.ret_bind, Outcome.pure_eq, Steps.runO_ite, Steps.runO_ret, Steps.runO_bind, Steps.runO_look, SL.deref_cache, SL.nextAt, hd]
        by_cases h1 : keyCmp n.key key = 0
        · rw [if_pos h1, if_pos h1]; rfl
        · rw [if_neg h1, if_neg h1]
          by_cases h2 : keyCmp n.key key > 0
          · rw [if_pos h2, if_pos h2]; rfl
          · rw [if_neg h2, if_neg h2]
            cases idx n.next i with
            | ret nx => exact ih (.node p) nx
            | panic => rfl
            | diverge => rfl
      | panic => rfl
      | diverge => rfl

/-- The search loops of either implementation, as in `SL.findInsertPoint`. -/
def SL.findInsertOuterI (impl : SLImpl K) (sl : SL K V) (key : K) (i : Nat) (prev : Ref) (prevs : List (Option Ref)) : Outcome (Option Nat × List (Option Ref)) :=
  match impl with
  | .ordered _ => sl.findInsertOuterO key i prev prevs
  | .func keyCmp => SL.findInsertOuterF keyCmp sl key i prev prevs

def SL.findInsertInnerI (impl : SLImpl K) (sl : SL K V) (key : K) (i fuel : Nat) (prev : Ref) (next : Option Nat) : Outcome (Nat ⊕ Ref) :=
  match impl with
  | .ordered _ => sl.findInsertInnerO key i fuel prev next
  | .func keyCmp => SL.findInsertInnerF keyCmp sl key i fuel prev next

theorem SL.findInsertOuterI_succ (impl : SLImpl K) (sl : SL K V) (key : K) (i : Nat) (prev : Ref) (prevs : List (Option Ref)) :
    SL.findInsertOuterI impl sl key (i + 1) prev prevs = (do
      let cur ← sl.nextAt prev i
      match ← SL.findInsertInnerI impl sl key i (sl.nodes.length + 1) prev cur with
      | .inl p => return (some p, prevs)
      | .inr prev => do
        let prevs ← setIdx prevs i (some prev)
        SL.findInsertOuterI impl sl key i prev prevs) := by
  cases impl <;> rfl

theorem lkInsertInner_run (impl : SLImpl K) (sl : SL K V) (c : List (Option Ref)) (key : K) (i fuel : Nat) (prev : Ref) (next : Option Nat) :
    (lkInsertInner impl key i fuel prev next).runO { sl with prevsCache := c } = (SL.findInsertInnerI impl sl key i fuel prev next >>= fun r => .ret (r, { sl with prevsCache := c })) := by
  cases impl with
  | ordered o => exact lkInsertInnerO_run sl c key i fuel prev next
  | func f => exact lkInsertInnerF_run f sl c key i fuel prev next

theorem lkSetPrev_run {sl : SL K V} {level i : Nat} {prev : Ref} {prevs rest : List (Option Ref)} (hl : prevs.length = level) (hi : i < level) :
    (lkSetPrev level i prev).runO { sl with prevsCache := prevs ++ rest } =
      (setIdx prevs i (some prev) >>= fun p => .ret ((), { sl with prevsCache := p ++ rest })) := by
  have hs : ∀ (l : List (Option Ref)), i < l.length → setIdx l i (some prev) = .ret (l.set i (some prev)) := fun l h => by
    simp [setIdx, h]
  rw [lkSetPrev, Steps.runO_change, SL.setPrev, if_pos hi, hs prevs (hl ▸ hi), hs (prevs ++ rest) (by rw [List.length_append]; omega)]
  rw [List.set_append_left _ _ (hl ▸ hi)]
  rfl

theorem setIdx_length {T : Type} {l l' : List T} {i : Nat} {x : T} (h : setIdx l i x = .ret l') : l'.length = l.length := by
  unfold setIdx at h
  split at h
  · injection h with h; rw [← h]; simp
  · exact nomatch h

theorem lkInsertOuter_run (impl : SLImpl K) (sl : SL K V) (key : K) (level : Nat) (rest : List (Option Ref)) (i : Nat) : ∀ (prev : Ref) (prevs : List (Option Ref)), prevs.length = level → i ≤ level →
    (lkInsertOuter impl sl.nodes.length key level i prev).runO { sl with prevsCache := prevs ++ rest } =
      (SL.findInsertOuterI impl sl key i prev prevs >>= fun r => .ret (r.1, { sl with prevsCache := r.2 ++ rest })) := by
  induction i with
  | zero => intro prev prevs _ _; cases impl <;> rfl
  | succ i ih =>
    intro prev prevs hl hi
    rw [SL.findInsertOuterI_succ]
    simp only [lkInsertOuter, lkNext, Steps.runO_bind, Steps.runO_look, SL.nextAt_cache]
    cases sl.nextAt prev i with
    | ret cur =>
      simp only [Outcome.ret_bind, Outcome.bind_assoc', lkInsertInner_run]
      cases SL.findInsertInnerI impl sl key i (sl.nodes.length + 1) prev cur with
      | ret r =>
        cases r with
        | inl p => rfl
        | inr prev' =>
          simp only [Outcome.ret_bind, Steps.runO_bind, lkSetPrev_run hl hi, Outcome.bind_assoc']
          exact Outcome.bind_congr_ret (fun p hp => ih prev' p (by rw [setIdx_length hp, hl]) (by omega))
      | panic => rfl
      | diverge => rfl
    | panic => rfl
    | diverge => rfl

theorem findInsertOuterI_length (impl : SLImpl K) (sl : SL K V) (key : K) (i : Nat) : ∀ (prev : Ref) (prevs : List (Option Ref)) (r : Option Nat × List (Option Ref)),
    SL.findInsertOuterI impl sl key i prev prevs = .ret r → r.2.length = prevs.length := by
  induction i with
  | zero => intro prev prevs r h; cases impl <;> (injection h with h; rw [← h])
  | succ i ih =>
    intro prev prevs r h
    rw [SL.findInsertOuterI_succ] at h
    obtain ⟨cur, h1, h⟩ := Outcome.bind_ret h
    obtain ⟨x, h2, h⟩ := Outcome.bind_ret h
    cases x with
    | inl p => injection h with h; rw [← h]
    | inr prev' =>
      obtain ⟨p, h3, h⟩ := Outcome.bind_ret h
      rw [ih prev' p r h, setIdx_length h3]

theorem SL.findInsertPoint_eq (impl : SLImpl K) (sl : SL K V) (key : K) : sl.findInsertPoint impl key = (do
    let prevs ← sl.prevsSlice
    let r ← SL.findInsertOuterI impl sl key sl.level .head prevs
    return (sl.storePrevs r.2, r.1, if r.1.isSome then [] else r.2)) := by
  cases impl <;> rfl

/-- The search of `Insert`: what it leaves in the cache is what the search as one step returns. -/
theorem lkFindInsertPoint_run (impl : SLImpl K) (sl : SL K V) (key : K) :
    ∃ X : Outcome (SL K V × Option Nat × List (Option Ref)), sl.findInsertPoint impl key = X ∧
      (lkFindInsertPoint impl key).runO sl = (X >>= fun r => .ret ((r.2.1, sl.level), r.1)) ∧
      ∀ r, X = .ret r → r.2.1 = none → r.1.prevsCache.take sl.level = r.2.2 := by
  refine ⟨_, rfl, ?_, ?_⟩
  · rw [SL.findInsertPoint_eq]
    simp only [lkFindInsertPoint, lkNodes, lkLevel, lkSlice, Steps.runO_bind, Steps.runO_look, Outcome.ret_bind, SL.prevsSlice]
    by_cases h : sl.level ≤ sl.prevsCache.length
    · have hl : (sl.prevsCache.take sl.level).length = sl.level := by rw [List.length_take]; omega
      have := lkInsertOuter_run impl sl key sl.level (sl.prevsCache.drop sl.level) sl.level .head _ hl (Nat.le_refl _)
      rw [List.take_append_drop] at this
      have this : (lkInsertOuter impl sl.nodes.length key sl.level sl.level .head).runO sl = _ := this
      simp only [if_pos h, Outcome.ret_bind, this, Outcome.bind_assoc', Outcome.pure_eq, Steps.runO_pure]
      refine Outcome.bind_congr_ret (fun r hr => ?_)
      rw [SL.storePrevs, findInsertOuterI_length _ _ _ _ _ _ _ hr, hl]
    · simp only [if_neg h]; rfl
  · intro r hr hn
    rw [SL.findInsertPoint_eq] at hr
    obtain ⟨prevs, h1, hr⟩ := Outcome.bind_ret hr
    obtain ⟨x, h2, hr⟩ := Outcome.bind_ret hr
    injection hr with hr
    subst hr
    simp only at hn ⊢
    have hl : x.2.length = sl.level := by
      rw [findInsertOuterI_length _ _ _ _ _ _ _ h2]
      unfold SL.prevsSlice at h1
      split at h1
      next h => injection h1 with h1; rw [← h1, List.length_take]; omega
      · exact nomatch h1
    rw [hn]
    show (x.2 ++ sl.prevsCache.drop x.2.length).take sl.level = x.2
    rw [← hl, List.take_left']
    rfl

/-! ## The rest of `Insert` -/

theorem lkRandomLevelLoop_run (sl : SL K V) (fuel level : Nat) : (lkRandomLevelLoop fuel level).runO sl = (randomLevelLoop sl.len fuel level >>= fun l => .ret (l, sl)) := by
  induction fuel generalizing level with
  | zero => rfl
  | succ fuel ih =>
    simp only [lkRandomLevelLoop, randomLevelLoop, lkLen, Steps.runO_ite, Steps.runO_bind, Steps.runO_look, Outcome.ret_bind, Steps.runO_ret, ih]
    by_cases h1 : level > 3
    · rw [if_pos h1]
      by_cases h2 : (2 ^ (level - 3) : Int) > sl.len
      · rw [if_pos h2, if_pos ⟨h1, h2⟩]
      · rw [if_neg h2, if_neg (fun h => h2 h.2)]; rfl
    · rw [if_neg h1, if_neg (fun h => h1 h.1)]; rfl

theorem lkRandomLevel_run (sl : SL K V) (rnd : Nat) : (lkRandomLevel rnd).runO sl = (sl.randomLevel rnd >>= fun l => .ret (l, sl)) := by
  simp only [lkRandomLevel, SL.randomLevel, Steps.runO_bind, lkRandomLevelLoop_run, Outcome.bind_assoc', Outcome.ret_bind, Outcome.pure_eq, Steps.runO_pure]

theorem setNextAt_fields {sl sl' : SL K V} {r : Ref} {i : Nat} {v : Option Nat} (h : sl.setNextAt r i v = .ret sl') :
    sl'.prevsCache = sl.prevsCache ∧ sl'.level = sl.level ∧ sl'.len = sl.len := by
  cases r with
  | head =>
    obtain ⟨x, _, h⟩ := Outcome.bind_ret h
    injection h with h; subst h; exact ⟨rfl, rfl, rfl⟩
  | node p =>
    obtain ⟨n, _, h⟩ := Outcome.bind_ret h
    obtain ⟨x, _, h⟩ := Outcome.bind_ret h
    injection h with h; subst h; exact ⟨rfl, rfl, rfl⟩

theorem lkSetNext_run (sl : SL K V) (r : Ref) (i : Nat) (v : Option Nat) : (lkSetNext r i v).runO sl = (sl.setNextAt r i v >>= fun s => .ret ((), s)) := by
  rw [lkSetNext, Steps.runO_change, Outcome.bind_assoc']
  rfl

theorem lkPrev_run (sl : SL K V) (plen i : Nat) : (lkPrev plen i).runO sl = (prevAt (sl.prevsCache.take plen) i >>= fun r => .ret (r, sl)) := by rw [lkPrev, Steps.runO_look]
theorem lkNext_run (sl : SL K V) (r : Ref) (i : Nat) : (lkNext r i).runO sl = (sl.nextAt r i >>= fun x => .ret (x, sl)) := by rw [lkNext, Steps.runO_look]
theorem lkLevel_run (sl : SL K V) : (lkLevel).runO sl = .ret (sl.level, sl) := by rw [lkLevel, Steps.runO_look]; rfl
theorem lkLen_run (sl : SL K V) : (lkLen).runO sl = .ret (sl.len, sl) := by rw [lkLen, Steps.runO_look]; rfl
theorem lkSetLevel_run (sl : SL K V) (l : Nat) : (lkSetLevel l).runO sl = .ret ((), { sl with level := l }) := by rw [lkSetLevel, Steps.runO_change]; rfl
theorem lkSetLen_run (sl : SL K V) (n : Int) : (lkSetLen n).runO sl = .ret ((), { sl with len := n }) := by rw [lkSetLen, Steps.runO_change]; rfl

theorem lkInsertLinks_run (node plen level : Nat) (prevs : List (Option Ref)) (fuel : Nat) : ∀ (i : Nat) (sl : SL K V), sl.prevsCache.take plen = prevs → min2 level sl.level - i < fuel →
    (lkInsertLinks node plen level fuel i).runO sl = (SL.insertLinks node prevs (min2 level sl.level - i) i sl >>= fun s => .ret ((), s)) := by
  induction fuel with
  | zero => intro i sl _ h; exact absurd h (Nat.not_lt_zero _)
  | succ fuel ih =>
    intro i sl hp hf
    simp only [lkInsertLinks, Steps.runO_bind, lkLevel_run, Outcome.ret_bind, Steps.runO_ite, Steps.runO_ret]
    by_cases h : i < min2 level sl.level
    · rw [if_pos h]
      obtain ⟨rem, hrem⟩ : ∃ rem, min2 level sl.level - i = rem + 1 := ⟨min2 level sl.level - i - 1, by omega⟩
      rw [hrem]
      simp only [SL.insertLinks, lkPrev_run, lkNext_run, lkSetNext_run, Outcome.bind_assoc', Outcome.ret_bind]
      rw [hp]
      refine Outcome.bind_congr_ret (fun r hr => Outcome.bind_congr_ret (fun nx hx => Outcome.bind_congr_ret (fun s hs => ?_)))
      obtain ⟨c1, l1, _⟩ := setNextAt_fields hs
      rw [c1, hp, hr]
      simp only [Outcome.ret_bind]
      refine Outcome.bind_congr_ret (fun s' hs' => ?_)
      obtain ⟨c2, l2, _⟩ := setNextAt_fields hs'
      rw [ih (i + 1) s' (by rw [c2, c1, hp]) (by rw [l2, l1]; omega), l2, l1]
      have : min2 level sl.level - (i + 1) = rem := by omega
      rw [this]
    · rw [if_neg h]
      have : min2 level sl.level - i = 0 := by omega
      rw [this]
      rfl

theorem insertLinks_fields (node : Nat) (prevs : List (Option Ref)) (rem : Nat) : ∀ (i : Nat) (sl sl' : SL K V), SL.insertLinks node prevs rem i sl = .ret sl' → sl'.level = sl.level := by
  induction rem with
  | zero => intro i sl sl' h; injection h with h; rw [h]
  | succ rem ih =>
    intro i sl sl' h
    obtain ⟨r, _, h⟩ := Outcome.bind_ret h
    obtain ⟨nx, _, h⟩ := Outcome.bind_ret h
    obtain ⟨s, h1, h⟩ := Outcome.bind_ret h
    obtain ⟨s', h2, h⟩ := Outcome.bind_ret h
    rw [ih _ _ _ h, (setNextAt_fields h2).2.1, (setNextAt_fields h1).2.1]

theorem lkRaiseHead_run (node : Nat) (rem : Nat) : ∀ (i : Nat) (sl : SL K V), (lkRaiseHead node rem i).runO sl = (SL.raiseHead node rem i sl >>= fun s => .ret ((), s)) := by
  induction rem with
  | zero => intro i sl; rfl
  | succ rem ih =>
    intro i sl
    simp only [lkRaiseHead, SL.raiseHead, Steps.runO_bind, lkSetNext_run, Outcome.bind_assoc', Outcome.ret_bind, ih]

/-- `Insert`, access by access, does what it does as one step. -/
theorem lkInsert_run (impl : SLImpl K) (rnd : Nat) (sl : SL K V) (key : K) (value : V) :
    (lkInsert impl rnd key value).runO sl = (sl.insert impl rnd key value >>= fun s => .ret ((), s)) := by
  obtain ⟨X, h1, h2, h3⟩ := lkFindInsertPoint_run impl sl key
  simp only [lkInsert, SL.insert, Steps.runO_bind, h1, h2, Outcome.bind_assoc', Outcome.ret_bind]
  refine Outcome.bind_congr_ret (fun r hr => ?_)
  obtain ⟨s, node, prevs⟩ := r
  cases node with
  | some p =>
    simp only [lkSetValue, Steps.runO_change, Outcome.bind_assoc']
    rfl
  | none =>
    have hc : s.prevsCache.take sl.level = prevs := h3 _ hr rfl
    simp only [Steps.runO_bind, lkRandomLevel_run, Outcome.bind_assoc', Outcome.ret_bind, lkNewNode, Steps.runO_change, lkLevel_run]
    refine Outcome.bind_congr_ret (fun level _ => Outcome.bind_congr_ret (fun q hq => ?_))
    have hn : q.1.prevsCache = s.prevsCache := by
      unfold SL.newNode at hq
      split at hq
      · injection hq with hq; rw [← hq]
      · exact nomatch hq
    rw [lkInsertLinks_run q.2 sl.level level prevs (level + 1) 0 q.1 (by rw [hn, hc]) (by rw [min2_nat]; omega)]
    simp only [Outcome.bind_assoc', Outcome.ret_bind, Nat.sub_zero]
    refine Outcome.bind_congr_ret (fun s2 _ => ?_)
    by_cases hl : level > s2.level
    · simp only [if_pos hl, Steps.runO_bind, lkLevel_run, Outcome.ret_bind, lkRaiseHead_run, Outcome.bind_assoc', lkSetLevel_run, lkLen_run, lkSetLen_run, Outcome.pure_eq]
    · simp only [if_neg hl, Steps.runO_bind, Outcome.ret_bind, Steps.runO_ret, lkLen_run, lkSetLen_run, Outcome.pure_eq]

/-! ## Remove -/

theorem lkPrevInnerO_run [GoOrd K] (sl : SL K V) (c : List (Option Ref)) (key : K) (i fuel : Nat) (prev : Ref) (next : Option Nat) :
    (lkPrevInnerO key i fuel prev next).runO { sl with prevsCache := c } = (sl.findPrevInnerO key i fuel prev next >>= fun r => .ret (r, { sl with prevsCache := c })) := by
  induction fuel generalizing prev next with
  | zero => rfl
  | succ fuel ih =>
    cases next with
    | none => rfl
    | some p =>
      simp only [lkPrevInnerO, SL.findPrevInnerO, lkKey, lkNext, Steps.runO_bind, Steps.runO_look, SL.deref_cache]
      cases hd : sl.deref p with
      | ret n =>
        simp only [Outcome.ret_bind, Outcome.pure_eq, Steps.runO_ite, Steps.runO_ret, Steps.runO_bind, Steps.runO_look, SL.deref_cache, SL.nextAt, hd]
        by_cases h1 : GoOrd.ge n.key key = true
        · rw [if_pos h1, if_pos h1]; rfl
        · rw [if_neg h1, if_neg h1]
          cases idx n.next i with
          | ret nx => exact ih (.node p) nx
          | panic => rfl
          | diverge => rfl
      | panic => rfl
      | diverge => rfl

theorem lkPrevInnerF_run (keyCmp : K → K → Int) (sl : SL K V) (c : List (Option Ref)) (key : K) (i fuel : Nat) (prev : Ref) (next : Option Nat) :
    (lkPrevInnerF keyCmp key i fuel prev next).runO { sl with prevsCache := c } = (SL.findPrevInnerF keyCmp sl key i fuel prev next >>= fun r => .ret (r, { sl with prevsCache := c })) := by
  induction fuel generalizing prev next with
  | zero => rfl
  | succ fuel ih =>
    cases next with
    | none => rfl
    | some p =>
      simp only [lkPrevInnerF, SL.findPrevInnerF, lkKey, lkNext, Steps.runO_bind, Steps.runO_look, SL.deref_cache]
      cases hd : sl.deref p with
      | ret n =>
        simp only [Outcome.ret_bind, Outcome.pure_eq, Steps.runO_ite, Steps.runO_ret, Steps.runO_bind, Steps.runO_look, SL.deref_cache, SL.nextAt, hd]
        by_cases h1 : keyCmp n.key key ≥ 0
        · rw [if_pos h1, if_pos h1]; rfl
        · rw [if_neg h1, if_neg h1]
          cases idx n.next i with
          | ret nx => exact ih (.node p) nx
          | panic => rfl
          | diverge => rfl
      | panic => rfl
      | diverge => rfl

def SL.findPrevOuterI (impl : SLImpl K) (sl : SL K V) (key : K) (i : Nat) (prev : Ref) (prevs : List (Option Ref)) : Outcome (List (Option Ref)) :=
  match impl with
  | .ordered _ => sl.findPrevOuterO key i prev prevs
  | .func keyCmp => SL.findPrevOuterF keyCmp sl key i prev prevs

def SL.findPrevInnerI (impl : SLImpl K) (sl : SL K V) (key : K) (i fuel : Nat) (prev : Ref) (next : Option Nat) : Outcome Ref :=
  match impl with
  | .ordered _ => sl.findPrevInnerO key i fuel prev next
  | .func keyCmp => SL.findPrevInnerF keyCmp sl key i fuel prev next

theorem SL.findPrevOuterI_succ (impl : SLImpl K) (sl : SL K V) (key : K) (i : Nat) (prev : Ref) (prevs : List (Option Ref)) :
    SL.findPrevOuterI impl sl key (i + 1) prev prevs = (do
      let cur ← sl.nextAt prev i
      let prev ← SL.findPrevInnerI impl sl key i (sl.nodes.length + 1) prev cur
      let prevs ← setIdx prevs i (some prev)
      SL.findPrevOuterI impl sl key i prev prevs) := by
  cases impl <;> rfl

theorem lkPrevInner_run (impl : SLImpl K) (sl : SL K V) (c : List (Option Ref)) (key : K) (i fuel : Nat) (prev : Ref) (next : Option Nat) :
    (lkPrevInner impl key i fuel prev next).runO { sl with prevsCache := c } = (SL.findPrevInnerI impl sl key i fuel prev next >>= fun r => .ret (r, { sl with prevsCache := c })) := by
  cases impl with
  | ordered o => exact lkPrevInnerO_run sl c key i fuel prev next
  | func f => exact lkPrevInnerF_run f sl c key i fuel prev next

theorem lkPrevOuter_run (impl : SLImpl K) (sl : SL K V) (key : K) (level : Nat) (rest : List (Option Ref)) (i : Nat) : ∀ (prev : Ref) (prevs : List (Option Ref)), prevs.length = level → i ≤ level →
    (lkPrevOuter impl sl.nodes.length key level i prev).runO { sl with prevsCache := prevs ++ rest } =
      (SL.findPrevOuterI impl sl key i prev prevs >>= fun r => .ret ((), { sl with prevsCache := r ++ rest })) := by
  induction i with
  | zero => intro prev prevs _ _; cases impl <;> rfl
  | succ i ih =>
    intro prev prevs hl hi
    rw [SL.findPrevOuterI_succ]
    simp only [lkPrevOuter, lkNext, Steps.runO_bind, Steps.runO_look, SL.nextAt_cache, Outcome.bind_assoc', Outcome.ret_bind, lkPrevInner_run, lkSetPrev_run hl hi]
    exact Outcome.bind_congr_ret (fun _ _ => Outcome.bind_congr_ret (fun prev' _ => Outcome.bind_congr_ret (fun p hp => ih prev' p (by rw [setIdx_length hp, hl]) (by omega))))

theorem findPrevOuterI_length (impl : SLImpl K) (sl : SL K V) (key : K) (i : Nat) : ∀ (prev : Ref) (prevs r : List (Option Ref)),
    SL.findPrevOuterI impl sl key i prev prevs = .ret r → r.length = prevs.length := by
  induction i with
  | zero => intro prev prevs r h; cases impl <;> (injection h with h; rw [← h])
  | succ i ih =>
    intro prev prevs r h
    rw [SL.findPrevOuterI_succ] at h
    obtain ⟨cur, _, h⟩ := Outcome.bind_ret h
    obtain ⟨prev', _, h⟩ := Outcome.bind_ret h
    obtain ⟨p, h3, h⟩ := Outcome.bind_ret h
    rw [ih prev' p r h, setIdx_length h3]

theorem SL.findPrevNodes_eq (impl : SLImpl K) (sl : SL K V) (key : K) : sl.findPrevNodes impl key = (do
    let prevs ← sl.prevsSlice
    let r ← SL.findPrevOuterI impl sl key sl.level .head prevs
    return (sl.storePrevs r, r)) := by
  cases impl <;> rfl

theorem lkFindPrevNodes_run (impl : SLImpl K) (sl : SL K V) (key : K) :
    (lkFindPrevNodes impl key).runO sl = (sl.findPrevNodes impl key >>= fun r => .ret (sl.level, r.1)) ∧
      ∀ r, sl.findPrevNodes impl key = .ret r → r.1.prevsCache.take sl.level = r.2 := by
  refine ⟨?_, ?_⟩
  · rw [SL.findPrevNodes_eq]
    simp only [lkFindPrevNodes, lkNodes, lkLevel, lkSlice, Steps.runO_bind, Steps.runO_look, Outcome.ret_bind, SL.prevsSlice]
    by_cases h : sl.level ≤ sl.prevsCache.length
    · have hl : (sl.prevsCache.take sl.level).length = sl.level := by rw [List.length_take]; omega
      have := lkPrevOuter_run impl sl key sl.level (sl.prevsCache.drop sl.level) sl.level .head _ hl (Nat.le_refl _)
      rw [List.take_append_drop] at this
      have this : (lkPrevOuter impl sl.nodes.length key sl.level sl.level .head).runO sl = _ := this
      simp only [if_pos h, Outcome.ret_bind, this, Outcome.bind_assoc', Outcome.pure_eq, Steps.runO_pure]
      refine Outcome.bind_congr_ret (fun r hr => ?_)
      rw [SL.storePrevs, findPrevOuterI_length _ _ _ _ _ _ _ hr, hl]
    · simp only [if_neg h]; rfl
  · intro r hr
    rw [SL.findPrevNodes_eq] at hr
    obtain ⟨prevs, h1, hr⟩ := Outcome.bind_ret hr
    obtain ⟨x, h2, hr⟩ := Outcome.bind_ret hr
    injection hr with hr
    subst hr
    have hl : x.length = sl.level := by
      rw [findPrevOuterI_length _ _ _ _ _ _ _ h2]
      unfold SL.prevsSlice at h1
      split at h1
      next h => injection h1 with h1; rw [← h1, List.length_take]; omega
      · exact nomatch h1
    show (x ++ sl.prevsCache.drop x.length).take sl.level = x
    rw [← hl, List.take_left']
    rfl

theorem lkUnlink_run (node plen : Nat) (prevs : List (Option Ref)) (rem : Nat) : ∀ (i : Nat) (sl : SL K V), sl.prevsCache.take plen = prevs →
    (lkUnlink node plen rem i).runO sl = (SL.unlink node prevs rem i sl >>= fun s => .ret ((), s)) := by
  induction rem with
  | zero => intro i sl _; rfl
  | succ rem ih =>
    intro i sl hp
    simp only [lkUnlink, SL.unlink, Steps.runO_bind, lkNext_run, lkPrev_run, lkSetNext_run, Outcome.bind_assoc', Outcome.ret_bind, hp]
    refine Outcome.bind_congr_ret (fun v _ => Outcome.bind_congr_ret (fun r _ => Outcome.bind_congr_ret (fun s hs => ?_)))
    exact ih (i + 1) s (by rw [(setNextAt_fields hs).1, hp])

theorem lkLowerLevel_run (fuel : Nat) : ∀ sl : SL K V, (lkLowerLevel fuel).runO sl = (SL.lowerLevel fuel sl >>= fun s => .ret ((), s)) := by
  induction fuel with
  | zero => intro sl; rfl
  | succ fuel ih =>
    intro sl
    simp only [lkLowerLevel, SL.lowerLevel, Steps.runO_bind, lkLevel_run, Outcome.ret_bind, Steps.runO_ite, lkNext_run, Outcome.bind_assoc', SL.nextAt]
    by_cases h : sl.level > 1
    · rw [if_pos h, if_pos h, Outcome.bind_assoc']
      refine Outcome.bind_congr_ret (fun x _ => ?_)
      cases x with
      | none => simp only [Steps.runO_bind, lkLevel_run, lkSetLevel_run, Outcome.ret_bind, ih]
      | some p => rfl
    · rw [if_neg h, if_neg h]; rfl

/-- `Remove`, access by access, does what it does as one step. -/
theorem lkRemove_run (impl : SLImpl K) (sl : SL K V) (key : K) : (lkRemove impl key).runO sl = (sl.remove impl key >>= fun r => .ret (r.2, r.1)) := by
  obtain ⟨h1, h2⟩ := lkFindPrevNodes_run impl sl key
  simp only [lkRemove, lkFindRemovePoint, SL.remove, SL.findRemovePoint, Steps.runO_bind, h1, Outcome.bind_assoc', Outcome.ret_bind, lkPrev_run, lkNext_run]
  refine Outcome.bind_congr_ret (fun r hr => ?_)
  obtain ⟨s, prevs⟩ := r
  have hc : s.prevsCache.take sl.level = prevs := h2 _ hr
  simp only [hc]
  refine Outcome.bind_congr_ret (fun x _ => Outcome.bind_congr_ret (fun y _ => ?_))
  cases y with
  | none => rfl
  | some p =>
    simp only [lkKey, Steps.runO_bind, Steps.runO_look, Outcome.bind_assoc', Outcome.ret_bind, Outcome.pure_eq]
    refine Outcome.bind_congr_ret (fun n hn => ?_)
    by_cases hk : impl.keyNe n.key key = true
    · simp only [if_pos hk]; rfl
    · simp only [if_neg hk, Steps.runO_pure, Outcome.ret_bind, Steps.runO_bind, Steps.runO_look, hn, lkUnlink_run p sl.level prevs _ 0 s hc, Outcome.bind_assoc', lkLevel_run, lkLowerLevel_run,
        lkLen_run, lkSetLen_run]

/-! ## Clear -/

theorem lkClearLoop_run (rem : Nat) : ∀ (i : Nat) (sl : SL K V), i + rem = sl.headNext.length →
    (lkClearLoop rem i).runO sl = .ret ((), { sl with headNext := sl.headNext.take i ++ List.replicate rem none }) := by
  induction rem with
  | zero => intro i sl h; rw [List.take_of_length_le (by omega)]; simp [lkClearLoop, Steps.runO_ret]
  | succ rem ih =>
    intro i sl h
    simp only [lkClearLoop, Steps.runO_bind, lkSetNext_run, SL.setNextAt, setIdx, if_pos (show i < sl.headNext.length by omega), Outcome.ret_bind, Outcome.pure_eq]
    rw [ih (i + 1) _ (by simp; omega)]
    congr 3
    simp only
    rw [List.take_set, List.take_add_one, List.getElem?_eq_getElem (by omega), List.replicate_succ]
    simp only [Option.toList_some]
    rw [List.set_append_right _ _ (by simp; omega)]
    simp [show i - min i sl.headNext.length = 0 by omega]

/-- `Clear`, access by access, does what it does as one step. -/
theorem lkClear_run (sl : SL K V) : (lkClear).runO sl = .ret ((), sl.clear) := by
  simp only [lkClear, Steps.runO_bind, Steps.runO_look, Outcome.ret_bind, lkClearLoop_run sl.headNext.length 0 sl (by omega), lkSetLevel_run, lkSetLen_run, SL.clear]
  congr 3
  simp [List.map_const']

/-! ## Calls -/

theorem SGThread.steps'_run (x : SGThread K V α) (sl : SL K V) : x.steps'.run sl = x.run sl := by
  induction x generalizing sl with
  | ret a => rfl
  | panic => rfl
  | diverge => rfl
  | level k ih => exact ih _ sl
  | len k ih => exact ih _ sl
  | next r i k ih =>
    simp only [SGThread.steps', Steps.run, SGThread.run, id]
    cases sl.nextAt r i with
    | ret v => exact ih v sl
    | panic => rfl
    | diverge => rfl
  | key p k ih =>
    simp only [SGThread.steps', Steps.run, SGThread.run, id]
    cases sl.deref p with
    | ret v => exact ih _ sl
    | panic => rfl
    | diverge => rfl
  | value p k ih =>
    simp only [SGThread.steps', Steps.run, SGThread.run, id]
    cases sl.deref p with
    | ret v => exact ih _ sl
    | panic => rfl
    | diverge => rfl
  | setValue p v k ih =>
    simp only [SGThread.steps', Steps.run, SGThread.run]
    cases sl.setValue p v with
    | ret s => exact ih s
    | panic => rfl
    | diverge => rfl

theorem LKCall.run_body (impl : SLImpl K) (c : LKCall K V) (sl : SL K V) : (c.body impl).runO sl = c.call impl sl := by
  cases c with
  | insert rnd k v => simp only [LKCall.body, LKCall.call, Steps.runO_bind, lkInsert_run, Outcome.bind_assoc', Outcome.ret_bind, Steps.runO_pure, Outcome.pure_eq]
  | remove k => simp only [LKCall.body, LKCall.call, Steps.runO_bind, lkRemove_run, Outcome.bind_assoc', Outcome.ret_bind, Steps.runO_pure, Outcome.pure_eq]
  | clear => simp only [LKCall.body, LKCall.call, Steps.runO_bind, lkClear_run, Outcome.ret_bind, Steps.runO_pure]
  | other c =>
    simp only [LKCall.body, LKCall.call, Steps.runO_bind, lkNodes, Steps.runO_look, Outcome.ret_bind]
    rw [Steps.runO, SGThread.steps'_run, SGCall.run_thread]

end Stl4go
