import Verif.Spec.SkipListM
import Verif.Proofs.SkipListAny
/-! # Skip list with an effectful compare function: it makes the calls of the pure search, then does what the pure model does -/
namespace Stl4go
variable {K V τ α β : Type}

/-! ## `Follows` -/

theorem callAll_append (cmp : CmpM K τ) (ps qs : List (K × K)) (t : τ) :
    callAll cmp (ps ++ qs) t = (match callAll cmp ps t with
      | .ok _ t' => callAll cmp qs t'
      | .panic t' => .panic t'
      | .diverge => .diverge) := by
  induction ps generalizing t with
  | nil => rfl
  | cons p ps ih =>
    simp only [List.cons_append, callAll, GoM.bind_def]
    cases cmp p.1 p.2 t with
    | ok r t' => exact ih t'
    | panic t' => rfl
    | diverge => rfl

theorem SL.cache_self (sl : SL K V) : { sl with prevsCache := sl.prevsCache } = sl := rfl

theorem Follows.of_ok {cmp : CmpM K τ} {x : GoM (SLS K V τ) α} {s : SLS K V τ} {sl' : SL K V} {a : α}
    (h : x s = .ok a ⟨sl', s.st⟩) : Follows cmp [] x s sl' a := h

theorem Follows.bind {cmp : CmpM K τ} {ps qs : List (K × K)} {x : GoM (SLS K V τ) α} {f : α → GoM (SLS K V τ) β} {s : SLS K V τ}
    {c : List (Option Ref)} {sl2 : SL K V} {a : α} {b : β} (hc : c.length = s.sl.prevsCache.length)
    (h1 : Follows cmp ps x s { s.sl with prevsCache := c } a)
    (h2 : ∀ t, Follows cmp qs (f a) ⟨{ s.sl with prevsCache := c }, t⟩ sl2 b) :
    Follows cmp (ps ++ qs) (x >>= f) s sl2 b := by
  unfold Follows at *
  rw [callAll_append]
  cases e : callAll cmp ps s.st with
  | ok u t =>
    simp only [e] at h1 ⊢
    rw [GoM.bind_def, h1]
    have := h2 t
    simp only at this
    cases e2 : callAll cmp qs t with
    | ok u t' => simpa only [e2] using this
    | panic t' =>
      simp only [e2] at this ⊢
      obtain ⟨c', h3, h4⟩ := this
      exact ⟨c', by rw [h3, hc], h4⟩
    | diverge => simpa only [e2] using this
  | panic t =>
    simp only [e] at h1 ⊢
    obtain ⟨c', h3, h4⟩ := h1
    exact ⟨c', h3, by rw [GoM.bind_def, h4]⟩
  | diverge =>
    simp only [e] at h1 ⊢
    rw [GoM.bind_def, h1]

/-- The same if the first part does not change the list. -/
theorem Follows.bind' {cmp : CmpM K τ} {ps qs : List (K × K)} {x : GoM (SLS K V τ) α} {f : α → GoM (SLS K V τ) β} {s : SLS K V τ}
    {sl2 : SL K V} {a : α} {b : β} (h1 : Follows cmp ps x s s.sl a) (h2 : ∀ t, Follows cmp qs (f a) ⟨s.sl, t⟩ sl2 b) :
    Follows cmp (ps ++ qs) (x >>= f) s sl2 b := Follows.bind (c := s.sl.prevsCache) rfl h1 h2

/-- Something that calls nothing at the end. -/
theorem Follows.last {cmp : CmpM K τ} {ps : List (K × K)} {x : GoM (SLS K V τ) α} {f : α → GoM (SLS K V τ) β} {s : SLS K V τ}
    {sl1 sl2 : SL K V} {a : α} {b : β} (h1 : Follows cmp ps x s sl1 a) (h2 : ∀ t, f a ⟨sl1, t⟩ = .ok b ⟨sl2, t⟩) :
    Follows cmp ps (x >>= f) s sl2 b := by
  unfold Follows at *
  cases e : callAll cmp ps s.st with
  | ok u t => simp only [e] at h1 ⊢; rw [GoM.bind_def, h1]; exact h2 t
  | panic t =>
    simp only [e] at h1 ⊢
    obtain ⟨c', h3, h4⟩ := h1
    exact ⟨c', h3, by rw [GoM.bind_def, h4]⟩
  | diverge => simp only [e] at h1 ⊢; rw [GoM.bind_def, h1]

/-- A statement that calls nothing, then the rest. -/
theorem Follows.step {cmp : CmpM K τ} {qs : List (K × K)} {x : GoM (SLS K V τ) α} {f : α → GoM (SLS K V τ) β} {s : SLS K V τ}
    {sl2 : SL K V} {a : α} {b : β} (h1 : x s = .ok a s) (h2 : Follows cmp qs (f a) s sl2 b) :
    Follows cmp qs (x >>= f) s sl2 b := by
  unfold Follows at *
  rw [GoM.bind_def, h1]; exact h2

/-- A call, then the rest. -/
theorem Follows.call {cmp : CmpM K τ} {k key : K} {qs : List (K × K)} {f : Int → GoM (SLS K V τ) β} {s : SLS K V τ}
    {sl2 : SL K V} {b : β} {c : K → K → Int} (ha : AgreesWith cmp c)
    (h2 : ∀ r t, r.sign = (c k key).sign → Follows cmp qs (f r) ⟨s.sl, t⟩ sl2 b) :
    Follows cmp ((k, key) :: qs) (SLS.call (cmp k key) >>= f) s sl2 b := by
  unfold Follows at *
  simp only [callAll, GoM.bind_def, SLS.call]
  cases e : cmp k key s.st with
  | ok r t =>
    have := h2 r t (ha _ _ _ _ _ e)
    simp only at this ⊢
    exact this
  | panic t => exact ⟨s.sl.prevsCache, rfl, rfl⟩
  | diverge => rfl

theorem SLS.read_ok {f : SL K V → Outcome α} {s : SLS K V τ} {a : α} (h : f s.sl = .ret a) : SLS.read f s = .ok a s := by
  simp [SLS.read, h]

theorem SLS.write_ok {f : SL K V → Outcome (SL K V × α)} {s : SLS K V τ} {sl' : SL K V} {a : α} (h : f s.sl = .ret (sl', a)) :
    SLS.write f s = .ok a ⟨sl', s.st⟩ := by
  simp [SLS.write, h]

/-! ## The calls of the pure search -/

/-- The keys an inner loop looks at. -/
def walkKeys (dec : K → Dec) (sl : SL K V) (i : Nat) : (fuel : Nat) → Option Nat → List K
  | 0, _ => []
  | _ + 1, none => []
  | fuel + 1, some cur =>
    match sl.deref cur with
    | .ret n => n.key :: (match dec n.key with
      | .go => match idx n.next i with
        | .ret nx => walkKeys dec sl i fuel nx
        | _ => []
      | _ => [])
    | _ => []

/-- The keys an outer loop looks at. -/
def outerKeys (dec : K → Dec) (sl : SL K V) : Nat → Ref → List K
  | 0, _ => []
  | i + 1, prev =>
    match sl.nextAt prev i with
    | .ret cur => walkKeys dec sl i (sl.nodes.length + 1) cur ++ (match walk dec sl i (sl.nodes.length + 1) prev cur with
      | .ret (.inr prev) => outerKeys dec sl i prev
      | _ => [])
    | _ => []

/-- Pair the keys with the key searched. -/
def withKey (key : K) (ks : List K) : List (K × K) := ks.map (fun k => (k, key))

theorem withKey_cons (key k : K) (ks : List K) : withKey key (k :: ks) = (k, key) :: withKey key ks := rfl
theorem withKey_append (key : K) (ks ls : List K) : withKey key (ks ++ ls) = withKey key ks ++ withKey key ls := by simp [withKey]

theorem SL.deref_cache (sl : SL K V) (c : List (Option Ref)) (p : Nat) : SL.deref { sl with prevsCache := c } p = sl.deref p := rfl
theorem SL.nextAt_cache (sl : SL K V) (c : List (Option Ref)) (r : Ref) (i : Nat) :
    SL.nextAt { sl with prevsCache := c } r i = sl.nextAt r i := by cases r <;> rfl

theorem Outcome.bind_ret {x : Outcome α} {f : α → Outcome β} {b : β} (h : (x >>= f) = .ret b) : ∃ a, x = .ret a ∧ f a = .ret b := by
  cases x with
  | ret a => exact ⟨a, rfl, h⟩
  | panic => simp at h
  | diverge => simp at h

/-- The ways the loop bodies branch depend on the sign only. -/
theorem sign_cases {r x : Int} (h : r.sign = x.sign) : (r = 0 ↔ x = 0) ∧ (r > 0 ↔ x > 0) ∧ (r ≥ 0 ↔ x ≥ 0) := by
  have h1 : ∀ y : Int, (y.sign = 1 ↔ y > 0) := fun y => Int.sign_eq_one_iff_pos
  have h2 : ∀ y : Int, (y.sign = -1 ↔ y < 0) := fun y => Int.sign_eq_neg_one_iff_neg
  have a1 := h1 r; have a2 := h2 r; have b1 := h1 x; have b2 := h2 x
  rw [h] at a1 a2
  omega

section
variable {cmp : CmpM K τ} {c : K → K → Int} (ha : AgreesWith cmp c) {key : K} {sl : SL K V}
include ha

theorem lowerBoundInner_follows {i : Nat} : ∀ (fuel : Nat) (prev : Ref) (cur : Option Nat) (r : Nat ⊕ Ref) (cache : List (Option Ref)) (t : τ),
    walk (decF c key) sl i fuel prev cur = .ret r →
    Follows cmp (withKey key (walkKeys (decF c key) sl i fuel cur)) (SLM.lowerBoundInner cmp key i fuel prev cur)
      ⟨{ sl with prevsCache := cache }, t⟩ { sl with prevsCache := cache } r := by
  intro fuel
  induction fuel with
  | zero => intro _ _ _ _ _ h; simp [walk] at h
  | succ fuel ih =>
    intro prev cur r cache t h
    cases cur with
    | none => simp [walk] at h; subst h; exact Follows.of_ok rfl
    | some p =>
      simp only [walk] at h
      obtain ⟨n, hn, h⟩ := Outcome.bind_ret h
      simp only [SLM.lowerBoundInner, walkKeys, hn, withKey_cons]
      refine Follows.step (SLS.read_ok hn) (Follows.call ha ?_)
      intro x t hx
      obtain ⟨e1, e2, _⟩ := sign_cases hx
      by_cases h0 : c n.key key = 0
      · simp [decF, h0] at h
        simp only [decF, h0, e1.2 h0, if_true]
        rw [← h]
        exact Follows.of_ok rfl
      · by_cases h1 : c n.key key > 0
        · simp [decF, h0, h1] at h
          simp only [decF, if_neg h0, if_pos h1, if_neg (fun h => h0 (e1.1 h)), if_pos (e2.2 h1)]
          rw [← h]
          exact Follows.of_ok rfl
        · simp only [decF, if_neg h0, if_neg h1] at h
          obtain ⟨nx, hnx, h⟩ := Outcome.bind_ret h
          simp only [decF, if_neg h0, if_neg h1, if_neg (fun h => h0 (e1.1 h)), if_neg (fun h => h1 (e2.1 h)), hnx]
          refine Follows.step (SLS.read_ok (a := nx) ?_) (ih _ _ _ _ _ h)
          simp only [SL.deref_cache, hn, Outcome.ret_bind, hnx]

theorem findInsertInner_follows {i : Nat} : ∀ (fuel : Nat) (prev : Ref) (cur : Option Nat) (r : Nat ⊕ Ref) (cache : List (Option Ref)) (t : τ),
    walk (decF c key) sl i fuel prev cur = .ret r →
    Follows cmp (withKey key (walkKeys (decF c key) sl i fuel cur)) (SLM.findInsertInner cmp key i fuel prev cur)
      ⟨{ sl with prevsCache := cache }, t⟩ { sl with prevsCache := cache } r := by
  intro fuel
  induction fuel with
  | zero => intro _ _ _ _ _ h; simp [walk] at h
  | succ fuel ih =>
    intro prev cur r cache t h
    cases cur with
    | none => simp [walk] at h; subst h; exact Follows.of_ok rfl
    | some p =>
      simp only [walk] at h
      obtain ⟨n, hn, h⟩ := Outcome.bind_ret h
      simp only [SLM.findInsertInner, walkKeys, hn, withKey_cons]
      refine Follows.step (SLS.read_ok hn) (Follows.call ha ?_)
      intro x t hx
      obtain ⟨e1, e2, _⟩ := sign_cases hx
      by_cases h0 : c n.key key = 0
      · simp [decF, h0] at h
        simp only [decF, h0, e1.2 h0, if_true]
        rw [← h]
        exact Follows.of_ok rfl
      · by_cases h1 : c n.key key > 0
        · simp [decF, h0, h1] at h
          simp only [decF, if_neg h0, if_pos h1, if_neg (fun h => h0 (e1.1 h)), if_pos (e2.2 h1)]
          rw [← h]
          exact Follows.of_ok rfl
        · simp only [decF, if_neg h0, if_neg h1] at h
          obtain ⟨nx, hnx, h⟩ := Outcome.bind_ret h
          simp only [decF, if_neg h0, if_neg h1, if_neg (fun h => h0 (e1.1 h)), if_neg (fun h => h1 (e2.1 h)), hnx]
          refine Follows.step (SLS.read_ok (a := nx) ?_) (ih _ _ _ _ _ h)
          simp only [SL.deref_cache, hn, Outcome.ret_bind, hnx]

theorem findPrevInner_follows {i : Nat} : ∀ (fuel : Nat) (prev : Ref) (cur : Option Nat) (r : Ref) (cache : List (Option Ref)) (t : τ),
    walk (decPF c key) sl i fuel prev cur = .ret (.inr r) →
    Follows cmp (withKey key (walkKeys (decPF c key) sl i fuel cur)) (SLM.findPrevInner cmp key i fuel prev cur)
      ⟨{ sl with prevsCache := cache }, t⟩ { sl with prevsCache := cache } r := by
  intro fuel
  induction fuel with
  | zero => intro _ _ _ _ _ h; simp [walk] at h
  | succ fuel ih =>
    intro prev cur r cache t h
    cases cur with
    | none => simp [walk] at h; subst h; exact Follows.of_ok rfl
    | some p =>
      simp only [walk] at h
      obtain ⟨n, hn, h⟩ := Outcome.bind_ret h
      simp only [SLM.findPrevInner, walkKeys, hn, withKey_cons]
      refine Follows.step (SLS.read_ok hn) (Follows.call ha ?_)
      intro x t hx
      obtain ⟨_, _, e3⟩ := sign_cases hx
      by_cases h1 : c n.key key ≥ 0
      · simp [decPF, h1] at h
        simp only [decPF, if_pos h1, if_pos (e3.2 h1)]
        rw [← h]
        exact Follows.of_ok rfl
      · simp only [decPF, if_neg h1] at h
        obtain ⟨nx, hnx, h⟩ := Outcome.bind_ret h
        simp only [decPF, if_neg h1, if_neg (fun h => h1 (e3.1 h)), hnx]
        refine Follows.step (SLS.read_ok (a := nx) ?_) (ih _ _ _ _ _ h)
        simp only [SL.deref_cache, hn, Outcome.ret_bind, hnx]

theorem lowerBoundOuter_follows (cache : List (Option Ref)) : ∀ (i : Nat) (prev : Ref) (r : Nat ⊕ Ref) (t : τ),
    findOuter (decF c key) sl i prev = .ret r →
    Follows cmp (withKey key (outerKeys (decF c key) sl i prev)) (SLM.lowerBoundOuter cmp key sl.nodes.length i prev)
      ⟨{ sl with prevsCache := cache }, t⟩ { sl with prevsCache := cache } r := by
  intro i
  induction i with
  | zero => intro prev r t h; simp [findOuter] at h; subst h; exact Follows.of_ok rfl
  | succ i ih =>
    intro prev r t h
    simp only [findOuter] at h
    obtain ⟨cur, hcur, h⟩ := Outcome.bind_ret h
    obtain ⟨w, hw, h⟩ := Outcome.bind_ret h
    simp only [SLM.lowerBoundOuter, outerKeys, hcur, hw, withKey_append]
    refine Follows.step (SLS.read_ok (a := cur) (by simp only [SL.nextAt_cache, hcur])) ?_
    refine Follows.bind' (lowerBoundInner_follows ha _ _ _ _ _ _ hw) ?_
    intro t
    cases w with
    | inl p => simp at h; subst h; exact Follows.of_ok rfl
    | inr p => exact ih p r t h

omit ha in
theorem SL.setPrev_append {level i : Nat} {prev : Ref} {prevs rest : List (Option Ref)} (hl : prevs.length = level) (hi : i < level) :
    SL.setPrev level i prev { sl with prevsCache := prevs ++ rest } =
      .ret ({ sl with prevsCache := prevs.set i (some prev) ++ rest }, ()) := by
  simp only [SL.setPrev, if_pos hi]
  rw [setIdx_of_lt (by simp; omega), List.set_append_left _ _ (by omega)]
  rfl

theorem findInsertOuter_follows {level : Nat} (rest : List (Option Ref)) : ∀ (i : Nat) (prev : Ref) (prevs prevs' : List (Option Ref))
    (node : Option Nat) (t : τ), prevs.length = level →
    prevOuter (decF c key) sl i prev prevs = .ret (node, prevs') →
    prevs'.length = level ∧
    Follows cmp (withKey key (outerKeys (decF c key) sl i prev)) (SLM.findInsertOuter cmp key sl.nodes.length level i prev)
      ⟨{ sl with prevsCache := prevs ++ rest }, t⟩ { sl with prevsCache := prevs' ++ rest } node := by
  intro i
  induction i with
  | zero =>
    intro prev prevs prevs' node t hl h
    simp [prevOuter] at h; obtain ⟨rfl, rfl⟩ := h; exact ⟨hl, Follows.of_ok rfl⟩
  | succ i ih =>
    intro prev prevs prevs' node t hl h
    simp only [prevOuter] at h
    obtain ⟨cur, hcur, h⟩ := Outcome.bind_ret h
    obtain ⟨w, hw, h⟩ := Outcome.bind_ret h
    simp only [SLM.findInsertOuter, outerKeys, hcur, hw, withKey_append]
    cases w with
    | inl p =>
      simp at h; obtain ⟨rfl, rfl⟩ := h
      refine ⟨hl, Follows.step (SLS.read_ok (a := cur) (by simp only [SL.nextAt_cache, hcur])) ?_⟩
      exact Follows.bind' (findInsertInner_follows ha _ _ _ _ _ _ hw) (fun t => Follows.of_ok rfl)
    | inr p =>
      obtain ⟨q, hq, h⟩ := Outcome.bind_ret h
      have hi : i < level := by
        rcases Nat.lt_or_ge i level with hc | hc
        · exact hc
        · rw [setIdx, if_neg (by omega)] at hq
          simp at hq
      rw [setIdx_of_lt (by omega)] at hq
      injection hq with hq
      subst hq
      have h1 := fun t => ih p _ _ _ t (by simpa using hl) h
      refine ⟨(h1 t).1, Follows.step (SLS.read_ok (a := cur) (by simp only [SL.nextAt_cache, hcur])) ?_⟩
      refine Follows.bind' (findInsertInner_follows ha _ _ _ _ _ _ hw) (fun t => ?_)
      have := Follows.bind (cmp := cmp) (ps := []) (qs := withKey key (outerKeys (decF c key) sl i p))
        (x := SLS.write (SL.setPrev level i p)) (f := fun _ => SLM.findInsertOuter cmp key sl.nodes.length level i p)
        (s := ⟨{ sl with prevsCache := prevs ++ rest }, t⟩) (c := prevs.set i (some p) ++ rest)
        (sl2 := { sl with prevsCache := prevs' ++ rest }) (a := ()) (b := node) (by simp)
        (Follows.of_ok (SLS.write_ok (SL.setPrev_append hl hi))) (fun t => (h1 t).2)
      exact this

theorem findPrevOuter_follows {level : Nat} (rest : List (Option Ref)) : ∀ (i : Nat) (prev : Ref) (prevs prevs' : List (Option Ref))
    (t : τ), prevs.length = level →
    prevOuter (decPF c key) sl i prev prevs = .ret (none, prevs') →
    prevs'.length = level ∧
    Follows cmp (withKey key (outerKeys (decPF c key) sl i prev)) (SLM.findPrevOuter cmp key sl.nodes.length level i prev)
      ⟨{ sl with prevsCache := prevs ++ rest }, t⟩ { sl with prevsCache := prevs' ++ rest } () := by
  intro i
  induction i with
  | zero =>
    intro prev prevs prevs' t hl h
    simp [prevOuter] at h; subst h; exact ⟨hl, Follows.of_ok rfl⟩
  | succ i ih =>
    intro prev prevs prevs' t hl h
    simp only [prevOuter] at h
    obtain ⟨cur, hcur, h⟩ := Outcome.bind_ret h
    obtain ⟨w, hw, h⟩ := Outcome.bind_ret h
    simp only [SLM.findPrevOuter, outerKeys, hcur, hw, withKey_append]
    cases w with
    | inl p => simp at h
    | inr p =>
      obtain ⟨q, hq, h⟩ := Outcome.bind_ret h
      have hi : i < level := by
        rcases Nat.lt_or_ge i level with hc | hc
        · exact hc
        · rw [setIdx, if_neg (by omega)] at hq
          simp at hq
      rw [setIdx_of_lt (by omega)] at hq
      injection hq with hq
      subst hq
      have h1 := fun t => ih p _ _ t (by simpa using hl) h
      refine ⟨(h1 t).1, Follows.step (SLS.read_ok (a := cur) (by simp only [SL.nextAt_cache, hcur])) ?_⟩
      refine Follows.bind' (findPrevInner_follows ha _ _ _ _ _ _ hw) (fun t => ?_)
      have := Follows.bind (cmp := cmp) (ps := []) (qs := withKey key (outerKeys (decPF c key) sl i p))
        (x := SLS.write (SL.setPrev level i p)) (f := fun _ => SLM.findPrevOuter cmp key sl.nodes.length level i p)
        (s := ⟨{ sl with prevsCache := prevs ++ rest }, t⟩) (c := prevs.set i (some p) ++ rest)
        (sl2 := { sl with prevsCache := prevs' ++ rest }) (a := ()) (b := ()) (by simp)
        (Follows.of_ok (SLS.write_ok (SL.setPrev_append hl hi))) (fun t => (h1 t).2)
      exact this

/-! ## The interface functions -/

/-- The calls of `lowerBound`. -/
def lowerCalls (c : K → K → Int) (key : K) (sl : SL K V) : List (K × K) := withKey key (outerKeys (decF c key) sl sl.level .head)

/-- The further call of `findNode` and `upperBound`. -/
def keyOf (sl : SL K V) : Option Nat → List K
  | some p => match sl.deref p with
    | .ret n => [n.key]
    | _ => []
  | none => []

/-- The calls of `findNode` and `upperBound`. -/
def nodeCalls (c : K → K → Int) (key : K) (sl : SL K V) : List (K × K) :=
  lowerCalls c key sl ++ withKey key (match SL.lowerBoundF c sl key with
    | .ret p => keyOf sl p
    | _ => [])

theorem lowerBound_follows {r : Option Nat} (t : τ) (h : SL.lowerBoundF c sl key = .ret r) :
    Follows cmp (lowerCalls c key sl) (SLM.lowerBound cmp key) ⟨sl, t⟩ sl r := by
  simp only [SL.lowerBoundF, lowerBoundOuterF_eq] at h
  obtain ⟨w, hw, h⟩ := Outcome.bind_ret h
  have h1 := lowerBoundOuter_follows ha (sl := sl) sl.prevsCache sl.level .head w t hw
  simp only [SLM.lowerBound, lowerCalls]
  refine Follows.step (SLS.read_ok rfl) ?_
  rw [← List.append_nil (withKey key _)]
  refine Follows.bind' h1 (fun t => ?_)
  cases w with
  | inl p => simp at h; subst h; exact Follows.of_ok rfl
  | inr p => exact Follows.of_ok (SLS.read_ok h)

theorem findNode_follows {r : Option Nat} (t : τ) (h : SL.findNodeF c sl key = .ret r) :
    Follows cmp (nodeCalls c key sl) (SLM.findNode cmp key) ⟨sl, t⟩ sl r := by
  simp only [SL.findNodeF] at h
  obtain ⟨w, hw, h⟩ := Outcome.bind_ret h
  simp only [SLM.findNode, nodeCalls, hw]
  refine Follows.bind' (lowerBound_follows ha t hw) (fun t => ?_)
  cases w with
  | none => simp at h; subst h; exact Follows.of_ok rfl
  | some p =>
    obtain ⟨n, hn, h⟩ := Outcome.bind_ret h
    simp only [keyOf, hn]
    refine Follows.step (SLS.read_ok hn) (Follows.call ha (fun x t hx => ?_))
    have e1 := (sign_cases hx).1
    by_cases h0 : c n.key key = 0
    · simp only [if_pos h0] at h; rw [if_pos (e1.2 h0)]; simp at h; subst h; exact Follows.of_ok rfl
    · simp only [if_neg h0] at h; rw [if_neg (fun h => h0 (e1.1 h))]; simp at h; subst h; exact Follows.of_ok rfl

theorem upperBound_follows {r : Option Nat} (t : τ) (h : SL.upperBoundF c sl key = .ret r) :
    Follows cmp (nodeCalls c key sl) (SLM.upperBound cmp key) ⟨sl, t⟩ sl r := by
  simp only [SL.upperBoundF] at h
  obtain ⟨w, hw, h⟩ := Outcome.bind_ret h
  simp only [SLM.upperBound, nodeCalls, hw]
  refine Follows.bind' (lowerBound_follows ha t hw) (fun t => ?_)
  cases w with
  | none => simp at h; subst h; exact Follows.of_ok rfl
  | some p =>
    obtain ⟨n, hn, h⟩ := Outcome.bind_ret h
    simp only [keyOf, hn]
    refine Follows.step (SLS.read_ok hn) (Follows.call ha (fun x t hx => ?_))
    have e1 := (sign_cases hx).1
    by_cases h0 : c n.key key = 0
    · simp only [if_pos h0] at h; rw [if_pos (e1.2 h0)]
      exact Follows.of_ok (SLS.read_ok (by simp only [hn, Outcome.ret_bind, h]))
    · simp only [if_neg h0] at h; rw [if_neg (fun h => h0 (e1.1 h))]; simp at h; subst h; exact Follows.of_ok rfl

theorem findInsertPoint_follows {sl' : SL K V} {node : Option Nat} {prevs : List (Option Ref)} (t : τ)
    (h : sl.findInsertPoint (.func c) key = .ret (sl', node, prevs)) :
    (∃ cache, cache.length = sl.prevsCache.length ∧ sl' = { sl with prevsCache := cache }) ∧
    Follows cmp (lowerCalls c key sl) (SLM.findInsertPoint cmp key) ⟨sl, t⟩ sl' (node, prevs) := by
  simp only [SL.findInsertPoint, findInsertOuterF_eq] at h
  obtain ⟨p0, hp0, h⟩ := Outcome.bind_ret h
  obtain ⟨w, hw, h⟩ := Outcome.bind_ret h
  obtain ⟨nd, ps⟩ := w
  have hp1 := hp0
  simp only [SL.prevsSlice] at hp1
  by_cases hle : sl.level ≤ sl.prevsCache.length
  · rw [if_pos hle] at hp1
    injection hp1 with hp1
    have hpl : p0.length = sl.level := by rw [← hp1]; simp; omega
    have hs : sl = { sl with prevsCache := p0 ++ sl.prevsCache.drop sl.level } := by
      rw [← hp1, List.take_append_drop]
    obtain ⟨hl, hf⟩ := findInsertOuter_follows ha (sl := sl) (sl.prevsCache.drop sl.level) sl.level .head p0 ps nd t hpl hw
    rw [← hs] at hf
    simp only [Outcome.pure_eq, SL.storePrevs, hl] at h
    injection h with h
    injection h with h1 h
    injection h with h2 h3
    subst h1 h2
    refine ⟨⟨_, by simp [hl]; omega, rfl⟩, ?_⟩
    simp only [SLM.findInsertPoint, lowerCalls]
    refine Follows.step (SLS.read_ok hp0) (Follows.step (SLS.read_ok rfl) ?_)
    rw [← List.append_nil (withKey key _)]
    refine Follows.bind (c := ps ++ sl.prevsCache.drop sl.level) (by simp [hl]; omega) hf (fun t => ?_)
    cases nd with
    | some p => simp at h3; subst h3; exact Follows.of_ok rfl
    | none =>
      simp at h3; subst h3
      refine Follows.step (SLS.read_ok (a := ps) ?_) (Follows.of_ok rfl)
      have e : sl.level ≤ (ps ++ sl.prevsCache.drop sl.level).length := by simp [hl]
      simp only [SL.prevsSlice, if_pos e]
      rw [List.take_append_of_le_length (by omega), ← hl, List.take_length]
  · rw [if_neg hle] at hp1; simp at hp1

theorem findPrevNodes_follows {sl' : SL K V} {prevs : List (Option Ref)} (t : τ)
    (h : sl.findPrevNodes (.func c) key = .ret (sl', prevs)) :
    (∃ cache, cache.length = sl.prevsCache.length ∧ sl' = { sl with prevsCache := cache }) ∧
    Follows cmp (withKey key (outerKeys (decPF c key) sl sl.level .head)) (SLM.findPrevNodes cmp key) ⟨sl, t⟩ sl' prevs := by
  simp only [SL.findPrevNodes] at h
  obtain ⟨p0, hp0, h⟩ := Outcome.bind_ret h
  obtain ⟨ps, hw, h⟩ := Outcome.bind_ret h
  have hw : prevOuter (decPF c key) sl sl.level .head p0 = .ret (none, ps) := by
    rw [← findPrevOuterF_eq, hw]; rfl
  have hp1 := hp0
  simp only [SL.prevsSlice] at hp1
  by_cases hle : sl.level ≤ sl.prevsCache.length
  · rw [if_pos hle] at hp1
    injection hp1 with hp1
    have hpl : p0.length = sl.level := by rw [← hp1]; simp; omega
    have hs : sl = { sl with prevsCache := p0 ++ sl.prevsCache.drop sl.level } := by
      rw [← hp1, List.take_append_drop]
    obtain ⟨hl, hf⟩ := findPrevOuter_follows ha (sl := sl) (sl.prevsCache.drop sl.level) sl.level .head p0 ps t hpl hw
    rw [← hs] at hf
    simp only [Outcome.pure_eq, SL.storePrevs, hl] at h
    injection h with h
    injection h with h1 h4
    subst h1 h4
    refine ⟨⟨_, by simp [hl]; omega, rfl⟩, ?_⟩
    simp only [SLM.findPrevNodes]
    refine Follows.step (SLS.read_ok hp0) (Follows.step (SLS.read_ok rfl) ?_)
    rw [← List.append_nil (withKey key _)]
    refine Follows.bind (c := ps ++ sl.prevsCache.drop sl.level) (by simp [hl]; omega) hf (fun t => ?_)
    refine Follows.of_ok (SLS.read_ok (a := ps) ?_)
    have e : sl.level ≤ (ps ++ sl.prevsCache.drop sl.level).length := by simp [hl]
    simp only [SL.prevsSlice, if_pos e]
    rw [List.take_append_of_le_length (by omega), ← hl, List.take_length]
  · rw [if_neg hle] at hp1; simp at hp1

/-- The node that `findRemovePoint` tests. -/
def removeNode (c : K → K → Int) (key : K) (sl : SL K V) : Option Nat :=
  match sl.findPrevNodes (.func c) key with
  | .ret (sl', prevs) => match (do let r ← prevAt prevs 0; sl'.nextAt r 0) with
    | .ret p => p
    | _ => none
  | _ => none

/-- The calls of `findRemovePoint`. -/
def removeCalls (c : K → K → Int) (key : K) (sl : SL K V) : List (K × K) :=
  withKey key (outerKeys (decPF c key) sl sl.level .head) ++ withKey key (keyOf sl (removeNode c key sl))

theorem findRemovePoint_follows {sl' : SL K V} {r : Option (Nat × List (Option Ref))} (t : τ)
    (h : sl.findRemovePoint (.func c) key = .ret (sl', r)) :
    (∃ cache, cache.length = sl.prevsCache.length ∧ sl' = { sl with prevsCache := cache }) ∧
    Follows cmp (removeCalls c key sl) (SLM.findRemovePoint cmp key) ⟨sl, t⟩ sl' r := by
  simp only [SL.findRemovePoint] at h
  obtain ⟨⟨sl1, prevs⟩, hw, h⟩ := Outcome.bind_ret h
  obtain ⟨r0, hr0, h⟩ := Outcome.bind_ret h
  obtain ⟨nd, hnd, h⟩ := Outcome.bind_ret h
  obtain ⟨⟨cache, hc, rfl⟩, hf⟩ := findPrevNodes_follows ha t hw
  have hnode : (do let r ← prevAt prevs 0; SL.nextAt { sl with prevsCache := cache } r 0) = .ret nd := by
    simp only [hr0, Outcome.ret_bind, hnd]
  simp only [removeCalls, removeNode, hw, hnode]
  cases nd with
  | none =>
    simp at h; obtain ⟨rfl, rfl⟩ := h
    refine ⟨⟨cache, hc, rfl⟩, Follows.bind hc hf (fun t => ?_)⟩
    exact Follows.step (SLS.read_ok hnode) (Follows.of_ok rfl)
  | some p =>
    obtain ⟨n, hn, h⟩ := Outcome.bind_ret h
    have hn' : sl.deref p = .ret n := hn
    simp only [keyOf, hn', SLImpl.keyNe] at h ⊢
    have e2 : sl' = { sl with prevsCache := cache } := by
      by_cases h0 : c n.key key = 0
      · simp [h0] at h; exact h.1.symm
      · simp [h0] at h; exact h.1.symm
    subst e2
    refine ⟨⟨cache, hc, rfl⟩, Follows.bind hc hf (fun t => ?_)⟩
    refine Follows.step (SLS.read_ok hnode) (Follows.step (SLS.read_ok hn) (Follows.call ha (fun x t hx => ?_)))
    have e1 := (sign_cases hx).1
    by_cases h0 : c n.key key = 0
    · simp [h0] at h; rw [if_neg (by simpa using e1.2 h0)]; subst h; exact Follows.of_ok rfl
    · simp [h0] at h; rw [if_pos (fun h => h0 (e1.1 h))]; subst h; exact Follows.of_ok rfl

/-! ## Operations -/

omit ha in
theorem SL.insert_eq (impl : SLImpl K) (rnd : Nat) (v : V) :
    sl.insert impl rnd key v = (do let r ← sl.findInsertPoint impl key; r.1.insertAt rnd key v r.2.1 r.2.2) := by
  simp only [SL.insert]
  cases sl.findInsertPoint impl key with
  | ret r => obtain ⟨sl1, node, prevs⟩ := r; cases node <;> rfl
  | panic => rfl
  | diverge => rfl

omit ha in
theorem SL.remove_eq (impl : SLImpl K) : sl.remove impl key = (do let r ← sl.findRemovePoint impl key; r.1.removeAt r.2) := by
  simp only [SL.remove]
  cases sl.findRemovePoint impl key with
  | ret r =>
    obtain ⟨sl1, found⟩ := r
    cases found with
    | none => rfl
    | some p => rfl
  | panic => rfl
  | diverge => rfl

/-- The calls an operation makes. -/
def opCalls (c : K → K → Int) (sl : SL K V) : SMOp K V → List (K × K)
  | .insert k _ => lowerCalls c k sl
  | .remove k => removeCalls c k sl
  | .update k _ => nodeCalls c k sl
  | .find k => nodeCalls c k sl
  | .has k => nodeCalls c k sl
  | .lowerBound k => lowerCalls c k sl
  | .upperBound k => nodeCalls c k sl
  | _ => []

theorem exec_follows {rnd : Nat} {op : SMOp K V} {sl' : SL K V} {ob : SMObs K V} (t : τ)
    (h : sl.exec (.func c) rnd op = .ret (sl', ob)) :
    Follows cmp (opCalls c sl op) (SLM.exec cmp rnd op) ⟨sl, t⟩ sl' ob := by
  cases op with
  | insert k v =>
    simp only [SL.exec, SL.insert_eq, bind_assoc] at h
    obtain ⟨⟨sl1, node, prevs⟩, h1, h⟩ := Outcome.bind_ret h
    obtain ⟨sl2, h2, h⟩ := Outcome.bind_ret h
    simp at h; obtain ⟨rfl, rfl⟩ := h
    obtain ⟨_, hf⟩ := findInsertPoint_follows ha t h1
    refine Follows.last (Follows.last hf (sl2 := sl2) (b := ()) (fun t => SLS.write_ok ?_)) (fun t => rfl)
    simp only at h2 ⊢; rw [h2]; rfl
  | remove k =>
    simp only [SL.exec, SL.remove_eq, bind_assoc] at h
    obtain ⟨⟨sl1, found⟩, h1, h⟩ := Outcome.bind_ret h
    obtain ⟨⟨sl2, b⟩, h2, h⟩ := Outcome.bind_ret h
    simp at h; obtain ⟨rfl, rfl⟩ := h
    obtain ⟨_, hf⟩ := findRemovePoint_follows ha t h1
    exact Follows.last (Follows.last hf (fun t => SLS.write_ok h2)) (fun t => rfl)
  | clear => simp [SL.exec] at h; obtain ⟨rfl, rfl⟩ := h; exact Follows.of_ok rfl
  | update k v =>
    simp only [SL.exec, SL.find, SL.findNode] at h
    obtain ⟨r, h1, h⟩ := Outcome.bind_ret h
    refine Follows.last (findNode_follows ha t h1) (fun t => ?_)
    cases r with
    | none => simp at h; obtain ⟨rfl, rfl⟩ := h; rfl
    | some p => exact SLS.write_ok h
  | find k =>
    simp only [SL.exec, SL.find, SL.findNode] at h
    obtain ⟨r, h1, h⟩ := Outcome.bind_ret h
    refine Follows.last (findNode_follows ha t h1) (fun t => ?_)
    cases r with
    | none => simp at h; obtain ⟨rfl, rfl⟩ := h; rfl
    | some p =>
      obtain ⟨v, hv, h⟩ := Outcome.bind_ret h
      simp at h; obtain ⟨rfl, rfl⟩ := h
      refine SLS.read_ok ?_
      simp only [hv, Outcome.ret_bind]; rfl
  | has k =>
    simp only [SL.exec, SL.has, SL.findNode, bind_assoc] at h
    obtain ⟨r, h1, h⟩ := Outcome.bind_ret h
    simp at h; obtain ⟨rfl, rfl⟩ := h
    exact Follows.last (Follows.last (findNode_follows ha t h1) (fun t => rfl)) (fun t => rfl)
  | len => simp [SL.exec] at h; obtain ⟨rfl, rfl⟩ := h; exact Follows.of_ok rfl
  | isEmpty => simp [SL.exec] at h; obtain ⟨rfl, rfl⟩ := h; exact Follows.of_ok rfl
  | iterate =>
    simp only [SL.exec] at h
    obtain ⟨it, h1, h⟩ := Outcome.bind_ret h
    obtain ⟨l, h2, h⟩ := Outcome.bind_ret h
    simp at h; obtain ⟨rfl, rfl⟩ := h
    refine Follows.of_ok ?_
    simp only [SLM.exec]
    refine SLS.read_ok ?_
    simp only [h1, h2, Outcome.ret_bind]; rfl
  | lowerBound k =>
    simp only [SL.exec, SL.lowerBoundIter, SL.lowerBound, bind_assoc] at h
    obtain ⟨r, h1, h⟩ := Outcome.bind_ret h
    simp only [Outcome.pure_eq, Outcome.ret_bind] at h
    obtain ⟨l, h2, h⟩ := Outcome.bind_ret h
    simp at h; obtain ⟨rfl, rfl⟩ := h
    refine Follows.last (Follows.last (lowerBound_follows ha t h1) (fun t => rfl)) (fun t => ?_)
    refine SLS.read_ok ?_
    simp only [h2, Outcome.ret_bind]; rfl
  | upperBound k =>
    simp only [SL.exec, SL.upperBoundIter, SL.upperBound, bind_assoc] at h
    obtain ⟨r, h1, h⟩ := Outcome.bind_ret h
    simp only [Outcome.pure_eq, Outcome.ret_bind] at h
    obtain ⟨l, h2, h⟩ := Outcome.bind_ret h
    simp at h; obtain ⟨rfl, rfl⟩ := h
    refine Follows.last (Follows.last (upperBound_follows ha t h1) (fun t => rfl)) (fun t => ?_)
    refine SLS.read_ok ?_
    simp only [h2, Outcome.ret_bind]; rfl

end
end Stl4go
