import Verif.Spec.Interchange
import Verif.Proofs.Agree
/-! # Lemmas about containers that do the same job -/
namespace Stl4go
variable {T K : Type}

section
variable [GoZero T]

/-- The specification of vectors, used at the end, shows what that of stacks shows: the list is the stack reversed. -/
theorem KSeq.run_vector : ∀ (h : List (Nat × UseStack T)) (s : Nat → List T),
    (VSeq.run (fun i => (s i).reverse) (h.map (fun o => (o.1, o.2.vector)))).1 = (KSeq.run s (h.map (fun o => (o.1, o.2.stack)))).1 := by
  intro h
  induction h with
  | nil => intro s; rfl
  | cons o h ih =>
    intro s
    obtain ⟨i, o⟩ := o
    have key : VSeq.step (s i).reverse o.vector = ((KSeq.step (s i) o.stack).1, (KSeq.step (s i) o.stack).2.reverse) := by
      generalize s i = l
      cases o <;> cases l <;> simp [UseStack.vector, UseStack.stack, VSeq.step, KSeq.step]
    simp only [List.map_cons, VSeq.run, KSeq.run, key]
    rw [← ih]
    congr 3
    funext j
    split <;> simp_all

theorem KSeq.run_queueBack : ∀ (h : List (Nat × UseStack T)) (s : Nat → List T),
    (Deque.run (fun i => (s i).reverse) (h.map (fun o => (o.1, o.2.dlistBack)))).1 = (KSeq.run s (h.map (fun o => (o.1, o.2.stack)))).1 := by
  intro h
  induction h with
  | nil => intro s; rfl
  | cons o h ih =>
    intro s
    obtain ⟨i, o⟩ := o
    have key : Deque.step (s i).reverse o.dlistBack = ((KSeq.step (s i) o.stack).1, (KSeq.step (s i) o.stack).2.reverse) := by
      generalize s i = l
      cases o <;> cases l <;> simp [UseStack.dlistBack, UseStack.queueBack, QOp.toDeque, UseStack.stack, Deque.step, KSeq.step]
    simp only [List.map_cons, Deque.run, KSeq.run, key]
    rw [← ih]
    congr 3
    funext j
    split <;> simp_all

theorem KSeq.run_queueFront : ∀ (h : List (Nat × UseStack T)) (s : Nat → List T),
    (Deque.run s (h.map (fun o => (o.1, o.2.dlistFront)))).1 = (KSeq.run s (h.map (fun o => (o.1, o.2.stack)))).1 := by
  intro h
  induction h with
  | nil => intro s; rfl
  | cons o h ih =>
    intro s
    obtain ⟨i, o⟩ := o
    have key : Deque.step (s i) o.dlistFront = KSeq.step (s i) o.stack := by
      generalize s i = l
      cases o <;> cases l <;> simp [UseStack.dlistFront, UseStack.queueFront, QOp.toDeque, UseStack.stack, Deque.step, KSeq.step]
    simp only [List.map_cons, Deque.run, KSeq.run, key]
    rw [← ih]

theorem KSeq.run_slist : ∀ (h : List (Nat × UseStack T)) (g : List (Nat × LOp T)) (s : Nat → List T),
    h.map (fun o => (o.1, o.2.slist)) = g.map (fun o => (o.1, some o.2)) → (LSeq.run s g).1 = (KSeq.run s (h.map (fun o => (o.1, o.2.stack)))).1 := by
  intro h
  induction h with
  | nil => intro g s e; cases g with
    | nil => rfl
    | cons _ _ => simp at e
  | cons o h ih =>
    intro g s e
    cases g with
    | nil => simp at e
    | cons o' g =>
      obtain ⟨i, o⟩ := o
      obtain ⟨i', o'⟩ := o'
      simp only [List.map_cons, List.cons.injEq, Prod.mk.injEq] at e
      obtain ⟨⟨rfl, e1⟩, e2⟩ := e
      have key : LSeq.step (s i) o' = KSeq.step (s i) o.stack := by
        generalize s i = l
        cases o <;> simp only [UseStack.slist, Option.some.injEq, reduceCtorEq] at e1 <;> subst e1 <;> cases l <;>
          simp [UseStack.stack, LSeq.step, KSeq.step]
      simp only [List.map_cons, LSeq.run, KSeq.run, key]
      rw [ih g _ e2]

theorem Deque.run_reversed : ∀ (h : List (Nat × UseQueue T)) (s : Nat → List T),
    (Deque.run (fun i => (s i).reverse) (h.map (fun o => (o.1, o.2.dlistReversed)))).1 = (Deque.run s (h.map (fun o => (o.1, o.2.dlist)))).1 := by
  intro h
  induction h with
  | nil => intro s; rfl
  | cons o h ih =>
    intro s
    obtain ⟨i, o⟩ := o
    have key : Deque.step (s i).reverse o.dlistReversed = ((Deque.step (s i) o.dlist).1, (Deque.step (s i) o.dlist).2.reverse) := by
      generalize s i = l
      cases o with
      | last =>
        rcases List.eq_nil_or_concat l with rfl | ⟨l, x, rfl⟩ <;>
          simp [UseQueue.dlistReversed, UseQueue.reversed, UseQueue.dlist, UseQueue.queue, QOp.toDeque, Deque.step]
      | _ => cases l <;> simp [UseQueue.dlistReversed, UseQueue.reversed, UseQueue.dlist, UseQueue.queue, QOp.toDeque, Deque.step]
    simp only [List.map_cons, Deque.run, key]
    rw [← ih]
    congr 3
    funext j
    split <;> simp_all

theorem Deque.run_slist : ∀ (h : List (Nat × UseQueue T)) (g : List (Nat × LOp T)) (s : Nat → List T),
    h.map (fun o => (o.1, o.2.slist)) = g.map (fun o => (o.1, some o.2)) → (LSeq.run s g).1 = (Deque.run s (h.map (fun o => (o.1, o.2.dlist)))).1 := by
  intro h
  induction h with
  | nil => intro g s e; cases g with
    | nil => rfl
    | cons _ _ => simp at e
  | cons o h ih =>
    intro g s e
    cases g with
    | nil => simp at e
    | cons o' g =>
      obtain ⟨i, o⟩ := o
      obtain ⟨i', o'⟩ := o'
      simp only [List.map_cons, List.cons.injEq, Prod.mk.injEq] at e
      obtain ⟨⟨rfl, e1⟩, e2⟩ := e
      have key : LSeq.step (s i) o' = Deque.step (s i) o.dlist := by
        generalize s i = l
        cases o <;> simp only [UseQueue.slist, Option.some.injEq, reduceCtorEq] at e1 <;> subst e1 <;>
          rcases List.eq_nil_or_concat l with rfl | ⟨l, x, rfl⟩ <;> simp [UseQueue.dlist, UseQueue.queue, QOp.toDeque, LSeq.step, Deque.step] <;>
          cases l <;> simp
      simp only [List.map_cons, LSeq.run, Deque.run, key]
      rw [ih g _ e2]

end

/-! ## Sets -/

section
variable [GoOrd K] [LawfulGoOrd K]

theorem lists_add {S : K → Bool} {s : List K} (h : Lists S s) (k : K) : Lists (fun x => S x || GoEq.eq x k) (SSet.add GoOrd.lt k s) := by
  have h1 := (h.assign false k).1
  rw [SSet.add, SSet.mem_lt, h.any]
  cases hk : S k with
  | true =>
    refine ⟨h.1, fun x => ?_⟩
    simp only [if_true]
    rw [← h.2 x]
    cases hx : GoEq.eq x k with
    | true => simp [h.congr hx, hk]
    | false => simp
  | false =>
    simp only [Bool.false_eq_true, if_false]
    have hm : ∀ x ∈ s, GoOrd.lt k x = !GoOrd.lt x k := by
      intro x hx
      have : GoEq.eq k x = false := by
        have := h.any k
        rw [hk, List.any_eq_false] at this
        simpa using this x hx
      cases h1 : GoOrd.lt x k with
      | true => simp [LawfulGoOrd.weak.asymm h1]
      | false =>
        cases h2 : GoOrd.lt k x with
        | true => rfl
        | false => rw [(LawfulGoOrd.eq_iff k x).2 ⟨h2, h1⟩] at this; cases this
    have e : s.filter (fun x => GoOrd.lt k x) = s.filter (fun x => !GoOrd.lt x k) := List.filter_congr hm
    have hp : (s.filter (fun x => GoOrd.lt x k) ++ k :: s.filter (fun x => GoOrd.lt k x)).Perm (assignKey false s k) := by
      have : assignKey false s k = s ++ [k] := by
        simp only [assignKey, h.any, hk]
        simp
      rw [this, e]
      refine List.perm_middle.trans ?_
      refine ((List.filter_append_perm _ s).cons k).trans ?_
      exact (List.perm_append_singleton k s).symm
    exact h1.perm hp

theorem lists_del {S : K → Bool} {s : List K} (h : Lists S s) (k : K) : Lists (fun x => S x && !GoEq.eq x k) (SSet.del GoOrd.lt k s) := by
  have e : SSet.del GoOrd.lt k s = s.filter (fun x => !GoEq.eq k x) := by
    refine List.filter_congr fun x _ => ?_
    cases hx : GoEq.eq k x with
    | true =>
      have := (LawfulGoOrd.eq_iff k x).1 hx
      simp [this.1, this.2]
    | false =>
      cases h1 : GoOrd.lt k x with
      | true => rfl
      | false =>
        cases h2 : GoOrd.lt x k with
        | true => rfl
        | false => rw [(LawfulGoOrd.eq_iff k x).2 ⟨h1, h2⟩] at hx; cases hx
  rw [e]; exact h.delete k

theorem add_length {S : K → Bool} {s : List K} (h : Lists S s) (k : K) : (SSet.add GoOrd.lt k s).length = s.length + if S k then 0 else 1 := by
  obtain ⟨h1, h2⟩ := h.assign false k
  rw [← h2]
  exact (lists_add h k).length_eq h1

theorem del_length {S : K → Bool} {s : List K} (h : Lists S s) (k : K) : (SSet.del GoOrd.lt k s).length + (if S k then 1 else 0) = s.length := by
  rw [← h.delete_length k]
  rw [(lists_del h k).length_eq (h.delete k)]

theorem lists_addN (ks : List K) : ∀ {S : K → Bool} {s : List K}, Lists S s →
    Lists (fun x => S x || ks.any (fun k => GoEq.eq x k)) (SSet.addN GoOrd.lt ks s).1 ∧
      ((SSet.addN GoOrd.lt ks s).1.length = s.length + (SSet.addN GoOrd.lt ks s).2) := by
  induction ks with
  | nil => intro S s h; simpa [SSet.addN] using h
  | cons k ks ih =>
    intro S s h
    obtain ⟨h1, h2⟩ := ih (lists_add h k)
    refine ⟨by simpa [SSet.addN, Bool.or_assoc] using h1, ?_⟩
    simp only [SSet.addN]
    rw [h2, add_length h k, SSet.mem_lt, h.any]
    omega

theorem lists_delN (ks : List K) : ∀ {S : K → Bool} {s : List K}, Lists S s →
    Lists (fun x => S x && !ks.any (fun k => GoEq.eq x k)) (SSet.delN GoOrd.lt ks s).1 ∧
      ((SSet.delN GoOrd.lt ks s).1.length + (SSet.delN GoOrd.lt ks s).2 = s.length) := by
  induction ks with
  | nil => intro S s h; simpa [SSet.delN] using h
  | cons k ks ih =>
    intro S s h
    obtain ⟨h1, h2⟩ := ih (lists_del h k)
    refine ⟨by simpa [SSet.delN, Bool.and_assoc] using h1, ?_⟩
    have := del_length h k
    simp only [SSet.delN, SSet.mem_lt, h.any]
    omega

theorem HasSize.eq_length {S : K → Bool} {s : List K} (h : Lists S s) {n : Int} (hn : HasSize S n) : n = s.length := by
  obtain ⟨l, h1, h2⟩ := hn
  rw [← h2, h1.length_eq h]

/-- One operation. -/
theorem sameObs_step {st : BState K} {r : Nat} {s : List K} (h : Lists (st.mem r) s) (op : UseSet K) {o : BObs K} (ho : st.Ok (op.builtin r) o) :
    SameObs (SSet.step GoOrd.lt s op.sorted).1 o ∧ Lists ((st.step (op.builtin r)).mem r) (SSet.step GoOrd.lt s op.sorted).2 := by
  cases op with
  | insert rnd k =>
    simp only [UseSet.builtin, BState.Ok, BState.of] at ho
    subst ho
    refine ⟨by simp [UseSet.sorted, SSet.step, SameObs, SSet.mem_lt, h.any], ?_⟩
    simpa [UseSet.builtin, UseSet.sorted, SSet.step, BState.step, BState.change, BState.of] using lists_add h k
  | insertN ks =>
    obtain ⟨n, n', e1, e2, rfl⟩ := ho
    obtain ⟨h1, h2⟩ := lists_addN (ks.map (·.2)) h
    have h3 : Lists ((st.step (UseSet.builtin r (.insertN ks))).mem r) (SSet.addN GoOrd.lt (ks.map (·.2)) s).1 := by
      simpa [UseSet.builtin, BState.step, BState.change, BState.of] using h1
    have e1 := HasSize.eq_length h e1
    have e2 := HasSize.eq_length h3 e2
    refine ⟨?_, h3⟩
    simp only [UseSet.sorted, SSet.step, SameObs]
    omega
  | remove k =>
    simp only [UseSet.builtin, BState.Ok, BState.of] at ho
    subst ho
    refine ⟨by simp [UseSet.sorted, SSet.step, SameObs, SSet.mem_lt, h.any], ?_⟩
    simpa [UseSet.builtin, UseSet.sorted, SSet.step, BState.step, BState.change, BState.of] using lists_del h k
  | removeN ks =>
    obtain ⟨n, n', e1, e2, rfl⟩ := ho
    obtain ⟨h1, h2⟩ := lists_delN ks h
    have h3 : Lists ((st.step (UseSet.builtin r (.removeN ks))).mem r) (SSet.delN GoOrd.lt ks s).1 := by
      simpa [UseSet.builtin, BState.step, BState.change, BState.of] using h1
    have e1 := HasSize.eq_length h e1
    have e2 := HasSize.eq_length h3 e2
    refine ⟨?_, h3⟩
    simp only [UseSet.sorted, SSet.step, SameObs]
    omega
  | has k =>
    simp only [UseSet.builtin, BState.Ok, BState.of] at ho
    subst ho
    exact ⟨by simp [UseSet.sorted, SSet.step, SameObs, SSet.mem_lt, h.any], h⟩
  | keys =>
    obtain ⟨l, rfl, hl⟩ := ho
    refine ⟨?_, h⟩
    simp only [UseSet.sorted, SSet.step, SameObs]
    exact ⟨h.length_eq hl, fun k => by rw [h.any, hl.any]; rfl⟩
  | clear =>
    simp only [UseSet.builtin, BState.Ok] at ho
    subst ho
    refine ⟨trivial, ?_⟩
    simpa [UseSet.builtin, UseSet.sorted, SSet.step, BState.step, BState.change] using Lists.nil
  | len =>
    obtain ⟨n, rfl, hn⟩ := ho
    exact ⟨(HasSize.eq_length h hn).symm, h⟩
  | isEmpty =>
    obtain ⟨b, rfl, hb⟩ := ho
    refine ⟨?_, h⟩
    simp only [UseSet.sorted, SSet.step, SameObs]
    rw [Bool.eq_iff_iff, hb]
    simp only [BState.of, List.isEmpty_iff]
    constructor
    · intro e k; rw [← h.any, e]; rfl
    · intro hk
      cases s with
      | nil => rfl
      | cons x s =>
        have := hk x
        rw [← h.any] at this
        simp [LawfulGoEq.refl] at this

theorem sameRun_run (r : Nat) : ∀ (ops : List (UseSet K)) {st : BState K} {s : List K} {os : List (BObs K)}, Lists (st.mem r) s →
    st.Matches (ops.map (UseSet.builtin r)) os → SameRun (SSet.run GoOrd.lt s (ops.map UseSet.sorted)).1 os := by
  intro ops
  induction ops with
  | nil => intro st s os _ h; simp only [List.map_nil, BState.Matches] at h; subst h; trivial
  | cons op ops ih =>
    intro st s os hl h
    obtain ⟨o, os', rfl, h1, h2⟩ := h
    obtain ⟨a, b⟩ := sameObs_step hl op h1
    exact ⟨a, ih b h2⟩

end
end Stl4go
