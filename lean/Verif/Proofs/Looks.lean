import Verif.Spec.Looks
/-! # Lemmas for C168 -/
namespace Stl4go
variable {T S α β : Type}

theorem Looks.pure (a : α) : Looks (T := T) (Pure.pure a) (.ret a) [] := fun s => by simp [Outcome.leaving]

theorem Looks.bind {x : GoM (List (Look T)) α} {f : α → GoM (List (Look T)) β} {a : α} {o : Outcome β} {t t' : List (Look T)}
    (h : Looks x (.ret a) t) (h' : Looks (f a) o t') : Looks (x >>= f) o (t ++ t') := fun s => by
  rw [GoM.bind_def, h s]
  show f a (s ++ t) = _
  rw [h' (s ++ t), List.append_assoc]

theorem Looks.readA {a : List T} {i : Nat} {v : T} (h : a[i]? = some v) : Looks (readA a i) (.ret v) [.a i] := fun s => by
  simp [Stl4go.readA, readAs, h, GoM.note, GoM.bind_def, Outcome.leaving]

theorem Looks.readB {a : List T} {i : Nat} {v : T} (h : a[i]? = some v) : Looks (readB a i) (.ret v) [.b i] := fun s => by
  simp [Stl4go.readB, readAs, h, GoM.note, GoM.bind_def, Outcome.leaving]

theorem Looks.testEq [GoEq T] (x y : T) : Looks (testEq x y) (.ret (GoEq.eq x y)) [.eq x y] := fun s => by
  simp [Stl4go.testEq, GoM.note, GoM.bind_def, Outcome.leaving]

theorem Looks.testLt [GoOrd T] (x y : T) : Looks (testLt x y) (.ret (GoOrd.lt x y)) [.lt x y] := fun s => by
  simp [Stl4go.testLt, GoM.note, GoM.bind_def, Outcome.leaving]

theorem Looks.testCall (p : T → Bool) (x : T) : Looks (testCall p x) (.ret (p x)) [.call x] := fun s => by
  simp [Stl4go.testCall, GoM.note, GoM.bind_def, Outcome.leaving]

theorem Looks.ofOutcome (o : Outcome α) : Looks (T := T) (GoM.ofOutcome o) o [] := fun s => by
  cases o <;> simp [GoM.ofOutcome, Outcome.leaving]

theorem get_of_drop {l l' : List S} {i : Nat} {v : S} (h : l.drop i = v :: l') : l[i]? = some v ∧ l.drop (i + 1) = l' := by
  constructor
  · have := congrArg (·[0]?) h; simpa using this
  · have := congrArg List.tail h; simpa using this

/-- What a loop over `l` looks at that stops after the first element with `p`. -/
def looksOf (p : S → Bool) (e : Nat → S → List (Look T)) : List S → Nat → List (Look T)
  | [], _ => []
  | v :: l, i => e i v ++ (if p v then [] else looksOf p e l (i + 1))

/-- How many elements it looks at. -/
def stopAfter (p : S → Bool) : List S → Nat
  | [] => 0
  | v :: l => if p v then 1 else stopAfter p l + 1

theorem looksOf_eq (p : S → Bool) (e : Nat → S → List (Look T)) : ∀ l i, looksOf p e l i = ((l.take (stopAfter p l)).zipIdx i).flatMap fun v => e v.2 v.1
  | [], _ => by simp [looksOf, stopAfter]
  | v :: l, i => by
    cases h : p v with
    | true => simp [looksOf, stopAfter, h]
    | false => simp [looksOf, stopAfter, h, looksOf_eq p e l (i + 1)]

theorem stopAfter_until (p : S → Bool) : ∀ l, Until p l (stopAfter p l)
  | [] => ⟨by simp [stopAfter], fun i v h => by simp [stopAfter] at h, fun h => by simp [stopAfter] at h⟩
  | v :: l => by
    cases h : p v with
    | true => exact ⟨by simp [stopAfter, h], fun i v hi => by simp [stopAfter, h] at hi, fun _ => ⟨v, by simp [stopAfter, h], by simp [stopAfter, h], h⟩⟩
    | false =>
      have e : stopAfter p (v :: l) = stopAfter p l + 1 := by simp [stopAfter, h]
      obtain ⟨h1, h2, h3⟩ := stopAfter_until p l
      rw [e]
      refine ⟨by simpa using h1, fun i w hi hw => ?_, fun hk => ?_⟩
      · cases i with
        | zero => simp at hw; rw [← hw]; exact h
        | succ i => exact h2 i w (by omega) (by simpa using hw)
      · obtain ⟨w, w1, w2, w3⟩ := h3 (by simpa using hk)
        obtain ⟨j, hj⟩ : ∃ j, stopAfter p l = j + 1 := ⟨stopAfter p l - 1, by omega⟩
        exact ⟨w, by omega, by rw [hj] at w2 ⊢; simpa using w2, w3⟩

theorem looksOf_visit (p : S → Bool) (e : Nat → S → List (Look T)) (l : List S) : looksOf p e l 0 = visit e l (stopAfter p l) := looksOf_eq p e l 0

theorem never_until (l : List S) {k : Nat} (h : Until (fun _ => false) l k) : k = l.length := by
  obtain ⟨h1, _, h3⟩ := h
  rcases Nat.lt_or_ge k l.length with h | h
  · obtain ⟨_, _, _, hv⟩ := h3 h; cases hv
  · omega

theorem Until.unique {p : S → Bool} {l : List S} {k k' : Nat} (h : Until p l k) (h' : Until p l k') : k = k' := by
  have key : ∀ {k k'}, Until p l k → Until p l k' → k ≤ k' := by
    intro k k' h h'
    rcases Nat.lt_or_ge k' k with hlt | hge
    · obtain ⟨v, v0, v1, v2⟩ := h'.2.2 (by have := h.1; omega)
      have := h.2.1 (k' - 1) v (by omega) v1
      rw [v2] at this; cases this
    · exact hge
  exact Nat.le_antisymm (key h h') (key h' h)

theorem findLoopLooks_eq [GoEq T] (x : T) (a : List T) : ∀ l i, a.drop i = l →
    Looks (findLoopLooks x a l.length i) (.ret (findLoop x l i)) (looksOf (GoEq.eq · x) (fun i v => [.a i, .eq v x]) l i)
  | [], _, _ => Looks.pure _
  | v :: l, i, h => by
    obtain ⟨h1, h2⟩ := get_of_drop h
    refine (Looks.readA h1).bind ((Looks.testEq v x).bind ?_)
    cases hp : GoEq.eq v x with
    | true => simpa [findLoop, hp] using Looks.pure _
    | false => simpa [findLoop, hp] using findLoopLooks_eq x a l (i + 1) h2

theorem indexLoopLooks_eq [GoEq T] (x : T) (a : List T) : ∀ l i, a.drop i = l →
    Looks (indexLoopLooks x a l.length i) (.ret (indexLoop x l i)) (looksOf (GoEq.eq · x) (fun i v => [.a i, .eq v x]) l i)
  | [], _, _ => Looks.pure _
  | v :: l, i, h => by
    obtain ⟨h1, h2⟩ := get_of_drop h
    refine (Looks.readA h1).bind ((Looks.testEq v x).bind ?_)
    cases hp : GoEq.eq v x with
    | true => simpa [indexLoop, hp] using Looks.pure _
    | false => simpa [indexLoop, hp] using indexLoopLooks_eq x a l (i + 1) h2

theorem findIfLoopLooks_eq (p : T → Bool) (a : List T) : ∀ l i, a.drop i = l →
    Looks (findIfLoopLooks p a l.length i) (.ret (findIfLoop p l i)) (looksOf p (fun i v => [.a i, .call v]) l i)
  | [], _, _ => Looks.pure _
  | v :: l, i, h => by
    obtain ⟨h1, h2⟩ := get_of_drop h
    refine (Looks.readA h1).bind ((Looks.testCall p v).bind ?_)
    cases hp : p v with
    | true => simpa [findIfLoop, hp] using Looks.pure _
    | false => simpa [findIfLoop, hp] using findIfLoopLooks_eq p a l (i + 1) h2

theorem anyOfLoopLooks_eq (p : T → Bool) (a : List T) : ∀ l i, a.drop i = l →
    Looks (anyOfLoopLooks p a l.length i) (.ret (anyOf l p)) (looksOf p (fun i v => [.a i, .call v]) l i)
  | [], _, _ => Looks.pure _
  | v :: l, i, h => by
    obtain ⟨h1, h2⟩ := get_of_drop h
    refine (Looks.readA h1).bind ((Looks.testCall p v).bind ?_)
    cases hp : p v with
    | true => simpa [anyOf, hp] using Looks.pure _
    | false => simpa [anyOf, hp] using anyOfLoopLooks_eq p a l (i + 1) h2

theorem allOfLoopLooks_eq (p : T → Bool) (a : List T) : ∀ l i, a.drop i = l →
    Looks (allOfLoopLooks p a l.length i) (.ret (allOf l p)) (looksOf (fun v => !p v) (fun i v => [.a i, .call v]) l i)
  | [], _, _ => Looks.pure _
  | v :: l, i, h => by
    obtain ⟨h1, h2⟩ := get_of_drop h
    refine (Looks.readA h1).bind ((Looks.testCall p v).bind ?_)
    cases hp : p v with
    | false => simpa [allOf, hp] using Looks.pure _
    | true => simpa [allOf, hp] using allOfLoopLooks_eq p a l (i + 1) h2

theorem countLoopLooks_eq [GoEq T] (x : T) (a : List T) : ∀ l i c, a.drop i = l →
    Looks (countLoopLooks x a l.length i c) (.ret (countLoop x l c)) (looksOf (fun _ => false) (fun i v => [.a i, .eq v x]) l i)
  | [], _, _, _ => Looks.pure _
  | v :: l, i, c, h => by
    obtain ⟨h1, h2⟩ := get_of_drop h
    refine (Looks.readA h1).bind ((Looks.testEq v x).bind ?_)
    cases hp : GoEq.eq v x with
    | true => simpa [countLoop, hp] using countLoopLooks_eq x a l (i + 1) (c + 1) h2
    | false => simpa [countLoop, hp] using countLoopLooks_eq x a l (i + 1) c h2

theorem countIfLoopLooks_eq (p : T → Bool) (a : List T) : ∀ l i c, a.drop i = l →
    Looks (countIfLoopLooks p a l.length i c) (.ret (countIfLoop p l c)) (looksOf (fun _ => false) (fun i v => [.a i, .call v]) l i)
  | [], _, _, _ => Looks.pure _
  | v :: l, i, c, h => by
    obtain ⟨h1, h2⟩ := get_of_drop h
    refine (Looks.readA h1).bind ((Looks.testCall p v).bind ?_)
    cases hp : p v with
    | true => simpa [countIfLoop, hp] using countIfLoopLooks_eq p a l (i + 1) (c + 1) h2
    | false => simpa [countIfLoop, hp] using countIfLoopLooks_eq p a l (i + 1) c h2

theorem sumLoopLooks_eq (pf : Platform) (acc elem : NKind) (a : List elem.Val) : ∀ l i t, a.drop i = l →
    Looks (sumLoopLooks pf acc elem a l.length i t) (.ret (sumLoop pf acc elem l t)) (looksOf (fun _ => false) (fun i _ => [.a i]) l i)
  | [], _, _, _ => Looks.pure _
  | v :: l, i, t, h => by
    obtain ⟨h1, h2⟩ := get_of_drop h
    refine (Looks.readA h1).bind ?_
    simpa [sumLoop] using sumLoopLooks_eq pf acc elem a l (i + 1) _ h2

theorem equalLoopLooks_eq [GoEq T] (a b : List T) : ∀ l l' i, a.drop i = l → b.drop i = l' → l.length = l'.length →
    ∃ r, equalLoop a b l.length i = .ret r ∧ Looks (equalLoopLooks a b l.length i) (.ret r)
      (looksOf (fun v : T × T => !GoEq.eq v.1 v.2) (fun i v => [.a i, .b i, .eq v.1 v.2]) (l.zip l') i)
  | [], [], _, _, _, _ => ⟨true, rfl, Looks.pure _⟩
  | v :: l, w :: l', i, h, h', e => by
    obtain ⟨h1, h2⟩ := get_of_drop h
    obtain ⟨k1, k2⟩ := get_of_drop h'
    have ix : idx a i = .ret v := by simp [idx, h1]
    have iy : idx b i = .ret w := by simp [idx, k1]
    cases hp : GoEq.eq v w with
    | true =>
      obtain ⟨r, r1, r2⟩ := equalLoopLooks_eq a b l l' (i + 1) h2 k2 (by simpa using e)
      refine ⟨r, by simp [equalLoop, ix, iy, hp, r1], ?_⟩
      refine (Looks.readA h1).bind ((Looks.readB k1).bind ((Looks.testEq v w).bind ?_))
      simpa [hp, looksOf, List.zip] using r2
    | false =>
      refine ⟨false, by simp [equalLoop, ix, iy, hp], ?_⟩
      refine (Looks.readA h1).bind ((Looks.readB k1).bind ((Looks.testEq v w).bind ?_))
      simpa [hp] using Looks.pure _

theorem isSortedLoopLooks_eq [GoOrd T] (a : List T) : ∀ l i u, a.drop (i + 1) = l →
    Looks (isSortedLoopLooks a l.length (i + 1) u) (.ret (isSortedLoop l u))
      (looksOf (fun v : T × T => GoOrd.lt v.2 v.1) (fun i v => [.a (i + 1), .lt v.2 v.1]) ((u :: l).zip l) i)
  | [], _, _, _ => Looks.pure _
  | v :: l, i, u, h => by
    obtain ⟨h1, h2⟩ := get_of_drop h
    refine (Looks.readA h1).bind ((Looks.testLt v u).bind ?_)
    cases hp : GoOrd.lt v u with
    | true => simpa [isSortedLoop, hp] using Looks.pure _
    | false => simpa [isSortedLoop, hp, looksOf, List.zip] using isSortedLoopLooks_eq a l (i + 1) v h2

theorem isDescSortedLoopLooks_eq [GoOrd T] (a : List T) : ∀ l i u, a.drop (i + 1) = l →
    Looks (isDescSortedLoopLooks a l.length (i + 1) u) (.ret (isDescSortedLoop l u))
      (looksOf (fun v : T × T => GoOrd.lt v.1 v.2) (fun i v => [.a (i + 1), .lt v.1 v.2]) ((u :: l).zip l) i)
  | [], _, _, _ => Looks.pure _
  | v :: l, i, u, h => by
    obtain ⟨h1, h2⟩ := get_of_drop h
    refine (Looks.readA h1).bind ((Looks.testLt u v).bind ?_)
    cases hp : GoOrd.lt u v with
    | true => simpa [isDescSortedLoop, hp] using Looks.pure _
    | false => simpa [isDescSortedLoop, hp, looksOf, List.zip] using isDescSortedLoopLooks_eq a l (i + 1) v h2

theorem compareLoopLooks_eq [GoOrd T] (a b : List T) : ∀ l l' i, a.drop i = l → b.drop i = l' → i ≤ b.length →
    ∃ r, compareLoop a.length b l i = .ret r ∧ Looks (compareLoopLooks a b l.length i) (.ret r)
      (looksOf apart comparing (l.zip l') i ++ if (l.zip l').any apart || decide (l.length ≤ l'.length) then [] else [.a b.length])
  | [], l', i, _, _, _ => ⟨_, rfl, by simpa [looksOf, compareLoopLooks] using Looks.pure _⟩
  | v :: l, [], i, h, h', hi => by
    obtain ⟨h1, h2⟩ := get_of_drop h
    have hb : i = b.length := by have := congrArg List.length h'; simp at this; omega
    subst hb
    refine ⟨1, by simp [compareLoop], ?_⟩
    have : Looks (compareLoopLooks a b (l.length + 1) b.length) (.ret 1) ([.a b.length] ++ []) := by
      refine (Looks.readA h1).bind ?_
      rw [if_pos (Nat.le_refl _)]
      exact Looks.pure _
    simpa [looksOf] using this
  | v :: l, w :: l', i, h, h', hi => by
    obtain ⟨h1, h2⟩ := get_of_drop h
    obtain ⟨k1, k2⟩ := get_of_drop h'
    have hb : i < b.length := by have := congrArg List.length h'; simp at this; omega
    have nb : ¬ i ≥ b.length := by omega
    have iy : idx b i = .ret w := by simp [idx, k1]
    cases hp : GoOrd.lt v w with
    | true =>
      refine ⟨-1, by simp [compareLoop, nb, iy, hp], ?_⟩
      have : Looks (compareLoopLooks a b (l.length + 1) i) (.ret (-1)) ([.a i] ++ ([.b i] ++ ([.lt v w] ++ []))) := by
        refine (Looks.readA h1).bind ?_
        rw [if_neg nb]
        refine (Looks.readB k1).bind ((Looks.testLt v w).bind ?_)
        simpa [hp] using Looks.pure _
      simpa [looksOf, apart, comparing, hp] using this
    | false =>
      cases hq : GoOrd.lt w v with
      | true =>
        refine ⟨1, by simp [compareLoop, nb, iy, hp, hq], ?_⟩
        have : Looks (compareLoopLooks a b (l.length + 1) i) (.ret 1) ([.a i] ++ ([.b i] ++ ([.lt v w] ++ ([.lt w v] ++ [])))) := by
          refine (Looks.readA h1).bind ?_
          rw [if_neg nb]
          refine (Looks.readB k1).bind ((Looks.testLt v w).bind ?_)
          rw [if_neg (by simp [hp])]
          refine (Looks.testLt w v).bind ?_
          simpa [hq] using Looks.pure _
        simpa [looksOf, apart, comparing, hp, hq] using this
      | false =>
        obtain ⟨r, r1, r2⟩ := compareLoopLooks_eq a b l l' (i + 1) h2 k2 hb
        refine ⟨r, by simp [compareLoop, nb, iy, hp, hq, r1], ?_⟩
        have : Looks (compareLoopLooks a b (l.length + 1) i) (.ret r) ([.a i] ++ ([.b i] ++ ([.lt v w] ++ ([.lt w v] ++ (looksOf apart comparing (l.zip l') (i + 1) ++
            if (l.zip l').any apart || decide (l.length ≤ l'.length) then [] else [.a b.length]))))) := by
          refine (Looks.readA h1).bind ?_
          rw [if_neg nb]
          refine (Looks.readB k1).bind ((Looks.testLt v w).bind ?_)
          rw [if_neg (by simp [hp])]
          refine (Looks.testLt w v).bind ?_
          rw [if_neg (by simp [hq])]
          exact r2
        have ap : apart (v, w) = false := by simp [apart, hp, hq]
        have cd : (((v, w) :: l.zip l').any apart || decide ((v :: l).length ≤ (w :: l').length)) = ((l.zip l').any apart || decide (l.length ≤ l'.length)) := by
          simp [ap]
        show Looks _ _ (looksOf apart comparing ((v, w) :: l.zip l') i ++
          if ((v, w) :: l.zip l').any apart || decide ((v :: l).length ≤ (w :: l').length) then [] else [.a b.length])
        rw [cd]
        simpa [looksOf, ap, comparing, hp] using this

theorem Through.done (a : List T) (c i : Nat) (h : a.length ≤ i) : Through a c i [] :=
  ⟨by simp [Nat.sub_eq_zero_of_le h], by simp, fun j h1 h2 => absurd h2 (by omega)⟩

theorem Through.step {a : List T} {c i : Nat} {t t' : List (Look T)} (h : Through a c (i + 1) t) (hi : i < a.length)
    (h1 : (t'.filter fun e => !e.isRead).length = c) (h2 : (t'.filter fun e => e.isRead).length ≤ 2 * c) (h3 : Look.a i ∈ t') : Through a c i (t' ++ t) := by
  obtain ⟨n, hn⟩ : ∃ n, a.length - i = n + 1 := ⟨a.length - i - 1, by omega⟩
  have hn' : a.length - (i + 1) = n := by omega
  refine ⟨?_, ?_, fun j j1 j2 => ?_⟩
  · have := h.tests; rw [hn'] at this; rw [List.filter_append, List.length_append, this, h1, hn, Nat.mul_succ]; omega
  · have := h.reads; rw [hn'] at this; rw [List.filter_append, List.length_append, hn, Nat.mul_succ]; omega
  · rcases Nat.eq_or_lt_of_le j1 with e | e
    · exact List.mem_append_left _ (e ▸ h3)
    · exact List.mem_append_right _ (h.all j e j2)

theorem maxNLoopLooks_eq [GoOrd T] (a : List T) : ∀ l i v, a.drop i = l →
    ∃ r t, maxNLoop a l.length i v = .ret r ∧ Looks (maxNLoopLooks a l.length i v) (.ret r) t ∧ Through a 1 i t
  | [], i, v, h => ⟨v, [], rfl, Looks.pure _, Through.done _ _ _ (by simpa using h)⟩
  | x :: l, i, v, h => by
    obtain ⟨h1, h2⟩ := get_of_drop h
    have hi : i < a.length := by have := congrArg List.length h; simp at this; omega
    have ix : idx a i = .ret x := by simp [idx, h1]
    cases hp : GoOrd.lt v x with
    | true =>
      obtain ⟨r, t, r1, r2, r3⟩ := maxNLoopLooks_eq a l (i + 1) x h2
      refine ⟨r, [.a i] ++ ([.lt v x] ++ ([.a i] ++ t)), by simp [maxNLoop, ix, hp, r1], (Looks.readA h1).bind ((Looks.testLt v x).bind ?_), ?_⟩
      · rw [if_pos hp]; exact (Looks.readA h1).bind r2
      · have := r3.step (t' := [.a i, .lt v x, .a i]) hi (by simp [Look.isRead]) (by simp [Look.isRead]) (by simp); simpa using this
    | false =>
      obtain ⟨r, t, r1, r2, r3⟩ := maxNLoopLooks_eq a l (i + 1) v h2
      refine ⟨r, [.a i] ++ ([.lt v x] ++ t), by simp [maxNLoop, ix, hp, r1], (Looks.readA h1).bind ((Looks.testLt v x).bind ?_), ?_⟩
      · rw [if_neg (by simp [hp])]; exact r2
      · have := r3.step (t' := [.a i, .lt v x]) hi (by simp [Look.isRead]) (by simp [Look.isRead]) (by simp); simpa using this

theorem minNLoopLooks_eq [GoOrd T] (a : List T) : ∀ l i v, a.drop i = l →
    ∃ r t, minNLoop a l.length i v = .ret r ∧ Looks (minNLoopLooks a l.length i v) (.ret r) t ∧ Through a 1 i t
  | [], i, v, h => ⟨v, [], rfl, Looks.pure _, Through.done _ _ _ (by simpa using h)⟩
  | x :: l, i, v, h => by
    obtain ⟨h1, h2⟩ := get_of_drop h
    have hi : i < a.length := by have := congrArg List.length h; simp at this; omega
    have ix : idx a i = .ret x := by simp [idx, h1]
    cases hp : GoOrd.lt x v with
    | true =>
      obtain ⟨r, t, r1, r2, r3⟩ := minNLoopLooks_eq a l (i + 1) x h2
      refine ⟨r, [.a i] ++ ([.lt x v] ++ ([.a i] ++ t)), by simp [minNLoop, ix, hp, r1], (Looks.readA h1).bind ((Looks.testLt x v).bind ?_), ?_⟩
      · rw [if_pos hp]; exact (Looks.readA h1).bind r2
      · have := r3.step (t' := [.a i, .lt x v, .a i]) hi (by simp [Look.isRead]) (by simp [Look.isRead]) (by simp); simpa using this
    | false =>
      obtain ⟨r, t, r1, r2, r3⟩ := minNLoopLooks_eq a l (i + 1) v h2
      refine ⟨r, [.a i] ++ ([.lt x v] ++ t), by simp [minNLoop, ix, hp, r1], (Looks.readA h1).bind ((Looks.testLt x v).bind ?_), ?_⟩
      · rw [if_neg (by simp [hp])]; exact r2
      · have := r3.step (t' := [.a i, .lt x v]) hi (by simp [Look.isRead]) (by simp [Look.isRead]) (by simp); simpa using this

theorem lowerTo_looks [GoOrd T] {a : List T} {i : Nat} {x : T} (h : a[i]? = some x) (mn : T) :
    Looks (lowerTo a i mn) (.ret (if GoOrd.lt x mn then x else mn)) ([.a i, .lt x mn] ++ if GoOrd.lt x mn then [.a i] else []) := by
  have := (Looks.readA h).bind (f := fun x => do if ← testLt x mn then readA a i else pure mn) (o := .ret (if GoOrd.lt x mn then x else mn))
    (t' := [.lt x mn] ++ if GoOrd.lt x mn then [.a i] else []) (by
      refine (Looks.testLt x mn).bind ?_
      cases hp : GoOrd.lt x mn with
      | true => simpa using Looks.readA h
      | false => simpa using Looks.pure _)
  simpa [lowerTo] using this

theorem raiseTo_looks [GoOrd T] {a : List T} {i : Nat} {x : T} (h : a[i]? = some x) (mx : T) :
    Looks (raiseTo a i mx) (.ret (if GoOrd.lt mx x then x else mx)) ([.a i, .lt mx x] ++ if GoOrd.lt mx x then [.a i] else []) := by
  have := (Looks.readA h).bind (f := fun x => do if ← testLt mx x then readA a i else pure mx) (o := .ret (if GoOrd.lt mx x then x else mx))
    (t' := [.lt mx x] ++ if GoOrd.lt mx x then [.a i] else []) (by
      refine (Looks.testLt mx x).bind ?_
      cases hp : GoOrd.lt mx x with
      | true => simpa using Looks.readA h
      | false => simpa using Looks.pure _)
  simpa [raiseTo] using this

theorem minMaxNLoopLooks_eq [GoOrd T] (a : List T) : ∀ l i mn mx, a.drop i = l →
    ∃ r t, minMaxNLoop a l.length i mn mx = .ret r ∧ Looks (minMaxNLoopLooks a l.length i mn mx) (.ret r) t ∧ Through a 2 i t
  | [], i, mn, mx, h => ⟨(mn, mx), [], rfl, Looks.pure _, Through.done _ _ _ (by simpa using h)⟩
  | x :: l, i, mn, mx, h => by
    obtain ⟨h1, h2⟩ := get_of_drop h
    have hi : i < a.length := by have := congrArg List.length h; simp at this; omega
    have ix : idx a i = .ret x := by simp [idx, h1]
    obtain ⟨r, t, r1, r2, r3⟩ := minMaxNLoopLooks_eq a l (i + 1) (if GoOrd.lt x mn then x else mn) (if GoOrd.lt mx x then x else mx) h2
    refine ⟨r, ([.a i, .lt x mn] ++ if GoOrd.lt x mn then [.a i] else []) ++ (([.a i, .lt mx x] ++ if GoOrd.lt mx x then [.a i] else []) ++ t),
      by simp [minMaxNLoop, ix, r1], (lowerTo_looks h1 mn).bind ((raiseTo_looks h1 mx).bind r2), ?_⟩
    rw [← List.append_assoc]
    refine r3.step hi ?_ ?_ (by simp)
    · cases GoOrd.lt x mn <;> cases GoOrd.lt mx x <;> simp [Look.isRead]
    · cases GoOrd.lt x mn <;> cases GoOrd.lt mx x <;> simp [Look.isRead]

theorem Through.length_le {a : List T} {c i : Nat} {t : List (Look T)} (h : Through a c i t) : t.length ≤ 3 * (c * (a.length - i)) := by
  have h1 := h.tests
  have h2 := h.reads
  have h3 : ∀ t : List (Look T), t.length = (t.filter fun e => e.isRead).length + (t.filter fun e => !e.isRead).length := by
    intro t
    induction t with
    | nil => rfl
    | cons e t ih => cases he : e.isRead <;> simp [he] <;> omega
  have h3 := h3 t
  rw [Nat.mul_assoc] at h2
  omega

theorem visit_length_le (c : Nat) {e : Nat → S → List (Look T)} (h : ∀ i v, (e i v).length ≤ c) (l : List S) (k : Nat) : (visit e l k).length ≤ c * l.length := by
  have key : ∀ (l : List S) i, ((l.zipIdx i).flatMap fun v => e v.2 v.1).length ≤ c * l.length := by
    intro l
    induction l with
    | nil => intro i; simp
    | cons v l ih => intro i; have := ih (i + 1); have := h i v; simp only [List.zipIdx_cons, List.flatMap_cons, List.length_append, List.length_cons, Nat.mul_succ]; omega
  have h1 := key (l.take k) 0
  have h2 : (l.take k).length ≤ l.length := by simp; omega
  exact Nat.le_trans h1 (Nat.mul_le_mul_left c h2)

end Stl4go
