import Verif.Proofs.PQCopy
/-! # Copies of priority queues as snapshots -/
namespace Stl4go
variable {T : Type} [GoZero T] [GoOrd T]

/-- Variable `i`, which points to what `t` says, is the queue `u` of its own. -/
def SnapVar (s : PQCSpec T) (i : Nat) (u : PQSpec T) : PQTrack → Prop
  | .zero => s.var i = none ∧ u = .zero
  | .queue x => s.var i = some x ∧ ∃ l q e past, s.view x = .queue l q e past ∧ u = .made l q
  | .copy x f => ∃ y a n l q e past c, s.var i = some y ∧ s.view y = .copy x a n ∧ s.view x = .queue l q e past ∧ u = .made l c ∧ c.length = n ∧
      MinFirst l c ∧ (f = true → n ≠ 0 → a = past.length ∧ (q ++ e).head? = c.head?)

/-- The state of the specification, of the tracking, and of queues of their own. -/
structure SnapInv (s : PQCSpec T) (n : Nat) (v : Nat → PQTrack) (u : Nat → PQSpec T) : Prop where
  next : n = s.next
  lt : ∀ i x, s.var i = some x → x < s.next
  ltv : ∀ x, s.view x ≠ .absent → x < s.next
  inj : ∀ i j x, s.var i = some x → s.var j = some x → i = j
  least : ∀ x l q e past, s.view x = .queue l q e past → MinFirst l q
  vars : ∀ i, SnapVar s i (u i) (v i)

omit [GoZero T] [GoOrd T] in
theorem SnapInv.init : SnapInv (T := T) PQCSpec.init 0 (fun _ => .zero) (fun _ => .zero) where
  next := rfl
  lt _ _ h := nomatch h
  ltv _ h := absurd rfl h
  inj _ _ _ h := nomatch h
  least _ _ _ _ _ h := nomatch h
  vars _ := ⟨rfl, rfl⟩

omit [GoZero T] [GoOrd T] in
/-- A variable that points to an object is a queue or a copy, as the object is. -/
theorem SnapVar.of_queue {s : PQCSpec T} {i x : Nat} {u : PQSpec T} {t : PQTrack} (h : SnapVar s i u t) {l : T → T → Bool} {q e : List T} {past : List (Option T)}
    (hi : s.var i = some x) (hx : s.view x = .queue l q e past) : t = .queue x ∧ u = .made l q := by
  cases t with
  | zero => have := h.1; rw [hi] at this; cases this
  | queue y =>
    obtain ⟨h1, l', q', e', past', h2, h3⟩ := h
    rw [hi] at h1
    cases h1
    rw [hx] at h2
    cases h2
    exact ⟨rfl, h3⟩
  | copy y f =>
    obtain ⟨z, a, n, _, _, _, _, _, h1, h2, _⟩ := h
    rw [hi] at h1
    cases h1
    rw [hx] at h2
    cases h2

omit [GoZero T] [GoOrd T] in
theorem SnapVar.of_copy {s : PQCSpec T} {i x k a n : Nat} {u : PQSpec T} {t : PQTrack} (h : SnapVar s i u t)
    (hi : s.var i = some x) (hx : s.view x = .copy k a n) : ∃ f, t = .copy k f := by
  cases t with
  | zero => have := h.1; rw [hi] at this; cases this
  | queue y =>
    obtain ⟨h1, l', q', e', past', h2, h3⟩ := h
    rw [hi] at h1
    cases h1
    rw [hx] at h2
    cases h2
  | copy y f =>
    obtain ⟨z, a', n', _, _, _, _, _, h1, h2, _⟩ := h
    rw [hi] at h1
    cases h1
    rw [hx] at h2
    cases h2
    exact ⟨f, rfl⟩

omit [GoZero T] [GoOrd T] in
/-- Queue `x` becomes one with the elements `q'`; copies of it that still count as fresh see the same first slot. -/
theorem SnapInv.change {s : PQCSpec T} {n : Nat} {v v' : Nat → PQTrack} {u : Nat → PQSpec T} (h : SnapInv s n v u) {i x : Nat} {l : T → T → Bool}
    {q e q' e' : List T} {past past' : List (Option T)} (hi : s.var i = some x) (hx : s.view x = .queue l q e past) (hmin : MinFirst l q')
    (hv : (v' = fun j => (v j).stale x) ∨ (v' = v ∧ past' = past ∧ (q' ++ e').head? = (q ++ e).head?)) :
    SnapInv (s.set x (.queue l q' e' past')) n v' (fun j => if j = i then .made l q' else u j) := by
  have hview : ∀ y, y ≠ x → (s.set x (.queue l q' e' past')).view y = s.view y := by intro y hy; simp [PQCSpec.set, hy]
  have hviewx : (s.set x (.queue l q' e' past')).view x = .queue l q' e' past' := by simp [PQCSpec.set]
  refine ⟨h.next, h.lt, ?_, h.inj, ?_, ?_⟩
  · intro y hy
    by_cases hyx : y = x
    · rw [hyx]; exact h.lt i x hi
    · rw [hview y hyx] at hy; exact h.ltv y hy
  · intro y l1 q1 e1 p1 hy
    by_cases hyx : y = x
    · rw [hyx, hviewx] at hy; cases hy; exact hmin
    · rw [hview y hyx] at hy; exact h.least y _ _ _ _ hy
  · intro j
    by_cases hj : j = i
    · obtain ⟨e1, e2⟩ := (h.vars i).of_queue hi hx
      have : v' i = .queue x := by
        rcases hv with hv | ⟨hv, _⟩
        · rw [hv]; simp only [e1, PQTrack.stale]
        · rw [hv]; exact e1
      rw [hj, this]
      simp only [if_true]
      exact ⟨hi, l, q', e', past', hviewx, rfl⟩
    · have hjj := h.vars j
      simp only [hj, if_false]
      cases hvj : v j with
      | zero =>
        rw [hvj] at hjj
        have : v' j = .zero := by
          rcases hv with hv | ⟨hv, _⟩
          · rw [hv]; simp only [hvj, PQTrack.stale]
          · rw [hv]; exact hvj
        rw [this]; exact hjj
      | queue y =>
        rw [hvj] at hjj
        have : v' j = .queue y := by
          rcases hv with hv | ⟨hv, _⟩
          · rw [hv]; simp only [hvj, PQTrack.stale]
          · rw [hv]; exact hvj
        rw [this]
        obtain ⟨h1, l1, q1, e1, p1, h2, h3⟩ := hjj
        have hyx : y ≠ x := by
          intro hc
          rw [hc] at h1
          exact hj (h.inj _ _ _ h1 hi)
        exact ⟨h1, l1, q1, e1, p1, by rw [hview y hyx]; exact h2, h3⟩
      | copy y f =>
        rw [hvj] at hjj
        obtain ⟨z, a, n', l1, q1, e1, p1, c, h1, h2, h3, h4, h5, h6, h7⟩ := hjj
        have hzx : z ≠ x := by
          intro hc
          rw [hc, hx] at h2
          cases h2
        have hvj' : ∃ f', v' j = .copy y f' ∧ (f' = true → f = true) ∧ (y = x → f' = true → past' = past ∧ (q' ++ e').head? = (q ++ e).head?) := by
          rcases hv with hv | ⟨hv, hp, hh⟩
          · refine ⟨f && !decide (x = y), by rw [hv]; simp only [hvj, PQTrack.stale], by cases f <;> simp, ?_⟩
            intro hyx hf
            simp [hyx] at hf
          · exact ⟨f, by rw [hv]; exact hvj, id, fun _ _ => ⟨hp, hh⟩⟩
        obtain ⟨f', g1, g2, g3⟩ := hvj'
        rw [g1]
        by_cases hyx : y = x
        · rw [hyx, hx] at h3
          cases h3
          refine ⟨z, a, n', l, q', e', past', c, h1, by rw [hview z hzx]; exact h2, by rw [hyx]; exact hviewx, h4, h5, h6, ?_⟩
          intro hf h0
          obtain ⟨k1, k2⟩ := g3 hyx hf
          obtain ⟨k3, k4⟩ := h7 (g2 hf) h0
          rw [k1, k2]
          exact ⟨k3, k4⟩
        · exact ⟨z, a, n', l1, q1, e1, p1, c, h1, by rw [hview z hzx]; exact h2, by rw [hview y hyx]; exact h3, h4, h5, h6, fun hf => h7 (g2 hf)⟩

omit [GoZero T] [GoOrd T] in
/-- A variable points to a new object. -/
theorem SnapInv.added {s : PQCSpec T} {n : Nat} {v : Nat → PQTrack} {u : Nat → PQSpec T} (h : SnapInv s n v u) (i : Nat) (nv : PQView T) (t : PQTrack) (q : PQSpec T)
    (hnew : SnapVar (s.add i nv) i q t)
    (hmin : ∀ l q e past, nv = .queue l q e past → MinFirst l q) : SnapInv (s.add i nv) (n + 1) (fun j => if j = i then t else v j) (fun j => if j = i then q else u j) := by
  have hn := h.next
  refine ⟨by simp [PQCSpec.add, hn], ?_, ?_, ?_, ?_, ?_⟩
  · intro j x hx
    simp only [PQCSpec.add] at hx ⊢
    by_cases hj : j = i
    · simp only [hj, if_true] at hx; cases hx; omega
    · simp only [hj, if_false] at hx; have := h.lt j x hx; omega
  · intro x hx
    simp only [PQCSpec.add] at hx ⊢
    by_cases hxn : x = s.next
    · omega
    · simp only [hxn, if_false] at hx; have := h.ltv x hx; omega
  · intro j k x hj hk
    simp only [PQCSpec.add] at hj hk
    by_cases hji : j = i
    · by_cases hki : k = i
      · rw [hji, hki]
      · simp only [hji, hki, if_true, if_false] at hj hk
        have := h.lt k x hk
        cases hj; omega
    · by_cases hki : k = i
      · simp only [hji, hki, if_true, if_false] at hj hk
        have := h.lt j x hj
        cases hk; omega
      · simp only [hji, hki, if_false] at hj hk
        exact h.inj j k x hj hk
  · intro x l1 q1 e1 p1 hx
    by_cases hxn : x = s.next
    · rw [hxn, s.add_new] at hx; exact hmin _ _ _ _ hx
    · rw [s.add_view i nv hxn] at hx; exact h.least x _ _ _ _ hx
  · intro j
    by_cases hj : j = i
    · simp only [hj, if_true]; exact hnew
    · have hjj := h.vars j
      simp only [hj, if_false]
      have hvar : (s.add i nv).var j = s.var j := by simp [PQCSpec.add, hj]
      have hold : ∀ y, s.view y ≠ .absent → (s.add i nv).view y = s.view y := by
        intro y hy
        have := h.ltv y hy
        exact s.add_view i nv (by omega)
      cases hvj : v j with
      | zero => rw [hvj] at hjj; exact ⟨by rw [hvar]; exact hjj.1, hjj.2⟩
      | queue y =>
        rw [hvj] at hjj
        obtain ⟨h1, l1, q1, e1, p1, h2, h3⟩ := hjj
        exact ⟨by rw [hvar]; exact h1, l1, q1, e1, p1, by rw [hold y (by rw [h2]; intro hc; cases hc)]; exact h2, h3⟩
      | copy y f =>
        rw [hvj] at hjj
        obtain ⟨z, a, n', l1, q1, e1, p1, c, h1, h2, h3, h4⟩ := hjj
        exact ⟨z, a, n', l1, q1, e1, p1, c, by rw [hvar]; exact h1, by rw [hold z (by rw [h2]; intro hc; cases hc)]; exact h2,
          by rw [hold y (by rw [h3]; intro hc; cases hc)]; exact h3, h4⟩

omit [GoZero T] [GoOrd T] in
theorem SnapInv.same {s : PQCSpec T} {n : Nat} {v : Nat → PQTrack} {u : Nat → PQSpec T} (h : SnapInv s n v u) {i : Nat} {q : PQSpec T} (hq : u i = q) :
    SnapInv s n v (fun j => if j = i then q else u j) := by
  have : (fun j => if j = i then q else u j) = u := by
    funext j
    by_cases hj : j = i
    · simp [hj, hq]
    · simp [hj]
  rw [this]; exact h

/-- One operation of a history with snapshots: a step of queues of their own. -/
theorem SnapInv.step (grow : Nat → Nat → Nat) {s s' : PQCSpec T} {n : Nat} {v : Nat → PQTrack} {u : Nat → PQSpec T} (h : SnapInv s n v u) {i : Nat}
    {op : PQCOp T} {ob : PQObs T} (hs : PQCStep grow s i op ob s') (hf : op.Fair (v i)) :
    ∃ q, SnapInv s' (op.track n v i).1 (op.track n v i).2 (fun j => if j = i then q else u j) ∧
      ((∃ o, op = .base o ∧ PQWStep (u i) o ob q) ∨ (∃ j, op = .copy j ∧ ob = .unit ∧ q = u j)) := by
  have hvi := h.vars i
  cases hs with
  | zero o _ hi hz =>
    have ht : v i = .zero ∧ u i = .zero := by
      cases hv : v i with
      | zero => rw [hv] at hvi; exact ⟨rfl, hvi.2⟩
      | queue y => rw [hv] at hvi; have := hvi.1; rw [hi] at this; cases this
      | copy y f =>
        rw [hv] at hvi
        obtain ⟨z, a, n', _, _, _, _, _, h1, _⟩ := hvi
        rw [hi] at h1; cases h1
    refine ⟨.zero, ?_, .inl ⟨_, rfl, by rw [ht.2]; exact hz⟩⟩
    have : PQCOp.track n v i (.base (.op o) : PQCOp T) = (n, v) := by cases o <;> simp [PQCOp.track, ht.1]
    rw [this]
    exact h.same ht.2
  | make o l q hm =>
    have hnew : SnapVar (s.add i (.queue l q [] [])) i (.made l q) (.queue n) :=
      ⟨by simp [PQCSpec.add, h.next], l, q, [], [], by rw [h.next]; exact s.add_new i _, rfl⟩
    have := h.added i (.queue l q [] []) (.queue n) (.made l q) hnew (by
      intro l' q' e' past' hq
      cases hq
      cases hm with
      | new => exact fun r hr => nomatch hr
      | newFunc => exact fun r hr => nomatch hr
      | newOf xs _ _ hm => exact hm)
    refine ⟨.made l q, ?_, .inl ⟨o, rfl, ?_⟩⟩
    · cases hm <;> exact this
    · cases hm with
      | new => exact .new _
      | newFunc => exact .newFunc _ _
      | newOf xs _ hp _ => exact .newOf _ _ _ hp
  | queue x o _ l q e past q' hi hx hstep hmin =>
    obtain ⟨ht, hu⟩ := hvi.of_queue hi hx
    refine ⟨.made l q', ?_, .inl ⟨_, rfl, by rw [hu]; exact .op _ _ _ _ _ hstep⟩⟩
    cases o with
    | push p =>
      refine h.change hi hx hmin (.inl ?_)
      simp only [PQCOp.track, ht]
    | pop =>
      refine h.change hi hx hmin (.inl ?_)
      simp only [PQCOp.track, ht]
    | clear =>
      cases hstep
      refine h.change hi hx hmin (.inr ⟨by simp only [PQCOp.track, ht], rfl, ?_⟩)
      simp [PQWOp.leaves, PQSpec.elems]
    | top =>
      have hq' : q' = q := by cases hstep <;> rfl
      subst hq'
      exact h.change hi hx hmin (.inr ⟨rfl, rfl, by cases hstep <;> rfl⟩)
    | len =>
      cases hstep
      exact h.change hi hx hmin (.inr ⟨rfl, rfl, rfl⟩)
    | isEmpty =>
      cases hstep
      exact h.change hi hx hmin (.inr ⟨rfl, rfl, rfl⟩)
  | push x k a n' p l q e past q' hi hx hk hstep hmin =>
    obtain ⟨f, ht⟩ := hvi.of_copy hi hx
    rw [ht] at hf
    exact absurd rfl (hf k f)
  | pop x k a n' _ l q e past q' hi hx hk hstep hmin =>
    obtain ⟨f, ht⟩ := hvi.of_copy hi hx
    rw [ht] at hf
    exact absurd rfl (hf k f)
  | len x k a n' hi hx =>
    obtain ⟨f, ht⟩ := hvi.of_copy hi hx
    rw [ht] at hvi
    obtain ⟨z, a', n1, l1, q1, e1, p1, c, h1, h2, h3, h4, h5, h6, h7⟩ := hvi
    rw [hi] at h1; cases h1
    rw [hx] at h2; cases h2
    refine ⟨.made l1 c, h.same h4, .inl ⟨_, rfl, ?_⟩⟩
    rw [h4, ← h5]
    exact .op _ _ _ _ _ (.len _)
  | isEmpty x k a n' hi hx =>
    obtain ⟨f, ht⟩ := hvi.of_copy hi hx
    rw [ht] at hvi
    obtain ⟨z, a', n1, l1, q1, e1, p1, c, h1, h2, h3, h4, h5, h6, h7⟩ := hvi
    rw [hi] at h1; cases h1
    rw [hx] at h2; cases h2
    refine ⟨.made l1 c, h.same h4, .inl ⟨_, rfl, ?_⟩⟩
    have : decide (n' = 0) = decide (c = []) := by rw [← h5]; simp [List.length_eq_zero_iff]
    rw [h4, this]
    exact .op _ _ _ _ _ (.isEmpty _)
  | clear x k a n' hi hx =>
    obtain ⟨f, ht⟩ := hvi.of_copy hi hx
    have hvi' := hvi
    rw [ht] at hvi
    obtain ⟨z, a', n1, l1, q1, e1, p1, c, h1, h2, h3, h4, h5, h6, h7⟩ := hvi
    rw [hi] at h1; cases h1
    rw [hx] at h2; cases h2
    refine ⟨.made l1 [], ?_, .inl ⟨_, rfl, by rw [h4]; exact .op _ _ _ _ _ (.clear _)⟩⟩
    have hview : ∀ y, y ≠ x → (s.set x (.copy k a 0)).view y = s.view y := by intro y hy; simp [PQCSpec.set, hy]
    have hviewx : (s.set x (.copy k a 0)).view x = .copy k a 0 := by simp [PQCSpec.set]
    have hkx : k ≠ x := by intro hc; rw [hc, hx] at h3; cases h3
    have htr : PQCOp.track n v i (.base (.op .clear) : PQCOp T) = (n, fun j => if j = i then .copy k true else v j) := by simp only [PQCOp.track, ht]
    rw [htr]
    refine ⟨h.next, h.lt, ?_, h.inj, ?_, ?_⟩
    · intro y hy
      by_cases hyx : y = x
      · rw [hyx]; exact h.lt i x hi
      · rw [hview y hyx] at hy; exact h.ltv y hy
    · intro y l1 q1 e1 p1 hy
      by_cases hyx : y = x
      · rw [hyx, hviewx] at hy; cases hy
      · rw [hview y hyx] at hy; exact h.least y _ _ _ _ hy
    · intro j
      by_cases hj : j = i
      · simp only [hj, if_true]
        exact ⟨x, a, 0, l1, q1, e1, p1, [], hi, hviewx, by rw [hview k hkx]; exact h3, rfl, rfl, (fun r hr => nomatch hr), fun _ h0 => absurd rfl h0⟩
      · simp only [hj, if_false]
        have hjj := h.vars j
        cases hvj : v j with
        | zero => rw [hvj] at hjj; exact hjj
        | queue y =>
          rw [hvj] at hjj
          obtain ⟨g1, l2, q2, e2, p2, g2, g3⟩ := hjj
          have hyx : y ≠ x := by intro hc; rw [hc, hx] at g2; cases g2
          exact ⟨g1, l2, q2, e2, p2, by rw [hview y hyx]; exact g2, g3⟩
        | copy y f' =>
          rw [hvj] at hjj
          obtain ⟨z, a2, n2, l2, q2, e2, p2, c2, g1, g2, g3, g4⟩ := hjj
          have hyx : y ≠ x := by intro hc; rw [hc, hx] at g3; cases g3
          have hzx : z ≠ x := by intro hc; rw [hc] at g1; exact hj (h.inj _ _ _ g1 hi)
          exact ⟨z, a2, n2, l2, q2, e2, p2, c2, g1, by rw [hview z hzx]; exact g2, by rw [hview y hyx]; exact g3, g4⟩
  | topEmpty x k a hi hx =>
    obtain ⟨f, ht⟩ := hvi.of_copy hi hx
    rw [ht] at hvi
    obtain ⟨z, a', n1, l1, q1, e1, p1, c, h1, h2, h3, h4, h5, h6, h7⟩ := hvi
    rw [hi] at h1; cases h1
    rw [hx] at h2; cases h2
    have hc : c = [] := List.eq_nil_of_length_eq_zero h5
    refine ⟨.made l1 c, h.same h4, .inl ⟨_, rfl, ?_⟩⟩
    rw [h4, hc]
    exact .op _ _ _ _ _ .topEmpty
  | top x k a n' l q e past r hi hx hk hr =>
    obtain ⟨f, ht⟩ := hvi.of_copy hi hx
    have hft : f = true := by
      cases f with
      | true => rfl
      | false => rw [ht] at hf; exact absurd rfl (hf k)
    rw [ht] at hvi
    obtain ⟨z, a', n1, l1, q1, e1, p1, c, h1, h2, h3, h4, h5, h6, h7⟩ := hvi
    rw [hi] at h1; cases h1
    rw [hx] at h2; cases h2
    rw [hk] at h3; cases h3
    obtain ⟨k1, k2⟩ := h7 hft (by omega)
    have hrc : c.head? = some r := by
      unfold firstSlot at hr
      rw [if_neg (by omega), k2] at hr
      exact hr
    refine ⟨.made l c, h.same h4, .inl ⟨_, rfl, ?_⟩⟩
    rw [h4]
    exact .op _ _ _ _ _ (.top _ _ (List.mem_of_mem_head? hrc) (h6 r hrc))
  | copyZero j hj =>
    have hvj := h.vars j
    have ht : v j = .zero ∧ u j = .zero := by
      cases hv : v j with
      | zero => rw [hv] at hvj; exact ⟨rfl, hvj.2⟩
      | queue y => rw [hv] at hvj; have := hvj.1; rw [hj] at this; cases this
      | copy y f =>
        rw [hv] at hvj
        obtain ⟨z, a, n', _, _, _, _, _, h1, _⟩ := hvj
        rw [hj] at h1; cases h1
    refine ⟨.zero, ?_, .inr ⟨j, rfl, rfl, ht.2.symm⟩⟩
    have htr : PQCOp.track n v i (.copy j : PQCOp T) = (n, fun k => if k = i then .zero else v k) := by simp [PQCOp.track, ht.1]
    rw [htr]
    refine ⟨h.next, ?_, h.ltv, ?_, h.least, ?_⟩
    · intro k x hx
      by_cases hk : k = i
      · simp [hk] at hx
      · simp [hk] at hx; exact h.lt k x hx
    · intro k m x hk hm
      by_cases hki : k = i
      · simp [hki] at hk
      · by_cases hmi : m = i
        · simp [hmi] at hm
        · simp [hki] at hk; simp [hmi] at hm; exact h.inj k m x hk hm
    · intro k
      by_cases hk : k = i
      · simp only [hk, if_true]; exact ⟨by simp, rfl⟩
      · simp only [hk, if_false]
        have := h.vars k
        cases hvk : v k <;> rw [hvk] at this <;> simpa [SnapVar, hk] using this
  | copyQueue j x l q e past hj hx =>
    obtain ⟨ht, hu⟩ := (h.vars j).of_queue hj hx
    have hnx : x ≠ s.next := by have := h.lt j x hj; omega
    have hnew : SnapVar (s.add i (.copy x past.length q.length)) i (.made l q) (.copy x true) := by
      refine ⟨s.next, past.length, q.length, l, q, e, past, q, by simp [PQCSpec.add], s.add_new i _, by rw [s.add_view i _ hnx]; exact hx, rfl, rfl, ?_, ?_⟩
      · exact h.least x _ _ _ _ hx
      · intro _ h0
        refine ⟨rfl, ?_⟩
        cases q with
        | nil => exact absurd rfl h0
        | cons b q => rfl
    have htr : PQCOp.track n v i (.copy j : PQCOp T) = (n + 1, fun k => if k = i then .copy x true else v k) := by simp [PQCOp.track, ht]
    rw [htr]
    exact ⟨.made l q, h.added i _ _ _ hnew (fun _ _ _ _ hc => nomatch hc), .inr ⟨j, rfl, rfl, hu.symm⟩⟩
  | copyCopy j x k a n' hj hx =>
    obtain ⟨f, ht⟩ := (h.vars j).of_copy hj hx
    have hvj := h.vars j
    rw [ht] at hvj
    obtain ⟨z, a', n1, l1, q1, e1, p1, c, h1, h2, h3, h4, h5, h6, h7⟩ := hvj
    rw [hj] at h1; cases h1
    rw [hx] at h2; cases h2
    have hnk : k ≠ s.next := by have := h.ltv k (by rw [h3]; intro hc; cases hc); omega
    have hnew : SnapVar (s.add i (.copy k a n')) i (.made l1 c) (.copy k f) :=
      ⟨s.next, a, n', l1, q1, e1, p1, c, by simp [PQCSpec.add], s.add_new i _, by rw [s.add_view i _ hnk]; exact h3, rfl, h5, h6, h7⟩
    have htr : PQCOp.track n v i (.copy j : PQCOp T) = (n + 1, fun k' => if k' = i then .copy k f else v k') := by simp [PQCOp.track, ht]
    rw [htr]
    exact ⟨.made l1 c, h.added i _ _ _ hnew (fun _ _ _ _ hc => nomatch hc), .inr ⟨j, rfl, rfl, h4.symm⟩⟩

/-- A history with snapshots: queues of their own. -/
theorem SnapInv.run (grow : Nat → Nat → Nat) {s s' : PQCSpec T} {ops : List (Nat × PQCOp T)} {obs : List (PQObs T)} (hr : PQCRun grow s ops obs s') :
    ∀ {n : Nat} {v : Nat → PQTrack} {u : Nat → PQSpec T}, SnapInv s n v u → PQCOp.Snapshots n v ops → PQOwnRun u ops obs := by
  induction hr with
  | nil s => intro n v u _ _; exact .nil u
  | cons s i op ob s1 ops obs s2 hs _ ih =>
    intro n v u h hf
    obtain ⟨q, h1, h2⟩ := h.step grow hs hf.1
    have := ih h1 hf.2
    rcases h2 with ⟨o, rfl, ho⟩ | ⟨j, rfl, rfl, rfl⟩
    · exact .base _ _ _ _ _ _ _ ho this
    · exact .copy _ _ _ _ _ this

end Stl4go
