import Verif.Spec.Retained
import Verif.Proofs.SList
import Verif.Proofs.DList
import Verif.Proofs.SkipListRun
/-! # Which nodes a container holds -/
namespace Stl4go
variable {T K V : Type}

theorem Reach.closed {link : Nat → Nat → Prop} {root : Nat → Prop} {S : Nat → Prop} (h0 : ∀ p, root p → S p)
    (h1 : ∀ p q, S p → link p q → S q) {p : Nat} (h : Reach link root p) : S p := by
  induction h with
  | root h => exact h0 _ h
  | step _ hl ih => exact h1 _ _ ih hl

/-! ## SList -/

theorem Ch.next {h : List (LNode T)} {p q : Nat} : ∀ {ids : List Nat}, Ch h ids → p ∈ ids → lnx h p = some (some q) → ids.Nodup → q ∈ ids
  | [], _, hp, _, _ => by simp at hp
  | x :: t, hc, hp, hq, hn => by
    rcases List.mem_cons.1 hp with rfl | hp
    · rw [hc.1] at hq
      have : t.head? = some q := Option.some.inj hq
      exact List.mem_cons_of_mem _ (List.mem_of_mem_head? this)
    · exact List.mem_cons_of_mem _ (Ch.next hc.2 hp hq (List.nodup_cons.1 hn).2)

theorem Ch.reach {h : List (LNode T)} {R : Nat → Prop} (hR : ∀ p q, R p → lnx h p = some (some q) → R q) :
    ∀ {ids : List Nat}, Ch h ids → (∀ p, ids.head? = some p → R p) → ∀ p ∈ ids, R p
  | [], _, _, _, hp => by simp at hp
  | x :: t, hc, h0, p, hp => by
    have hx : R x := h0 x rfl
    rcases List.mem_cons.1 hp with rfl | hp
    · exact hx
    · refine Ch.reach hR hc.2 (fun y hy => ?_) p hp
      exact hR x y hx (by rw [hc.1, hy])

theorem lnx_iff {h : List (LNode T)} {p q : Nat} : lnx h p = some (some q) ↔ ∃ n, h[p]? = some n ∧ n.next = some q := by
  simp [lnx, Option.map_eq_some_iff]

theorem LInv.holds {w : LWorld T} {i : Nat} {ids : List Nat} {s : List T} (h : LInv w.heap (w.vars i) ids s) (p : Nat) : w.Retains i p ↔ p ∈ ids := by
  constructor
  · intro hp
    refine Reach.closed (S := fun p => p ∈ ids) ?_ ?_ hp
    · rintro p (hp | hp)
      · rw [h.head] at hp; exact List.mem_of_mem_head? hp
      · rw [h.tail] at hp; exact List.mem_of_getLast? hp
    · intro p q hp hq
      exact h.ch.next hp (lnx_iff.2 hq) h.nodup
  · intro hp
    refine Ch.reach (R := w.Retains i) ?_ h.ch ?_ p hp
    · intro p q hp hq; exact .step hp (lnx_iff.1 hq)
    · intro p hp; exact .root (.inl (by rw [h.head]; exact hp))

/-! ## DList -/

theorem nx_iff {h : List (DNode T)} {p q : Nat} : nx h p = some (some q) ↔ ∃ n, h[p]? = some n ∧ n.next = some q := by
  simp [nx, Option.map_eq_some_iff]

theorem pv_iff {h : List (DNode T)} {p q : Nat} : pv h p = some (some q) ↔ ∃ n, h[p]? = some n ∧ n.prev = some q := by
  simp [pv, Option.map_eq_some_iff]

theorem Lk.next {h : List (DNode T)} {p q : Nat} : ∀ {l : List Nat}, Lk h l → p ∈ l.dropLast → nx h p = some (some q) → q ∈ l.tail
  | [], _, hp, _ => by simp at hp
  | [_], _, hp, _ => by simp at hp
  | x :: y :: t, hl, hp, hq => by
    rw [List.dropLast_cons_of_ne_nil (by simp)] at hp
    rcases List.mem_cons.1 hp with rfl | hp
    · rw [hl.1.1] at hq
      have : y = q := Option.some.inj (Option.some.inj hq)
      simp [this]
    · exact List.mem_cons_of_mem _ (Lk.next hl.2 hp hq)

theorem Lk.prev {h : List (DNode T)} {p q : Nat} : ∀ {l : List Nat}, Lk h l → p ∈ l.tail → l.tail.Nodup → pv h p = some (some q) → q ∈ l.dropLast
  | [], _, hp, _, _ => by simp at hp
  | [_], _, hp, _, _ => by simp at hp
  | x :: y :: t, hl, hp, hn, hq => by
    rw [List.dropLast_cons_of_ne_nil (by simp)]
    rcases List.mem_cons.1 hp with rfl | hp
    · rw [hl.1.2] at hq
      have : x = q := Option.some.inj (Option.some.inj hq)
      simp [this]
    · exact List.mem_cons_of_mem _ (Lk.prev hl.2 hp (List.nodup_cons.1 hn).2 hq)

theorem Lk.reach {h : List (DNode T)} {R : Nat → Prop} (hR : ∀ p q, R p → nx h p = some (some q) → R q) :
    ∀ {l : List Nat}, Lk h l → (∀ p, l.head? = some p → R p) → ∀ p ∈ l, R p
  | [], _, _, _, hp => by simp at hp
  | [x], _, h0, p, hp => by simp at hp; subst hp; exact h0 p rfl
  | x :: y :: t, hl, h0, p, hp => by
    have hx : R x := h0 x rfl
    rcases List.mem_cons.1 hp with rfl | hp
    · exact hx
    · refine Lk.reach hR hl.2 (fun z hz => ?_) p hp
      simp only [List.head?_cons, Option.some.injEq] at hz
      subst hz
      exact hR x y hx hl.1.1

theorem DInv.holds {w : DWorld T} {i : Nat} {ids : List Nat} {s : List T} (h : DInv w.heap (w.vars i) ids s) (p : Nat) :
    w.Retains i p ↔ (w.vars i).head = some p ∨ p ∈ ids := by
  cases hh : (w.vars i).head with
  | none =>
    have := h.empty hh
    subst this
    simp only [reduceCtorEq, List.not_mem_nil, or_self, iff_false]
    intro hp
    exact Reach.closed (S := fun _ => False) (fun p hp => by rw [hh] at hp; cases hp) (fun _ _ h _ => h) hp
  | some hd =>
    have L := h.lk hd hh
    have hn : (hd :: ids).Nodup := by have := h.nodup; rwa [foot_some ids hh] at this
    have hdrop : (hd :: ids ++ [hd]).dropLast = hd :: ids := List.dropLast_concat
    have htail : (hd :: ids ++ [hd]).tail = ids ++ [hd] := rfl
    have hnt : (ids ++ [hd]).Nodup := by
      rw [List.nodup_append]
      refine ⟨(List.nodup_cons.1 hn).2, by simp, fun a ha b hb e => ?_⟩
      simp only [List.mem_singleton] at hb
      subst hb; subst e
      exact (List.nodup_cons.1 hn).1 ha
    have hmem : ∀ p, (some hd = some p ∨ p ∈ ids) ↔ p ∈ hd :: ids := by
      intro p; simp [eq_comm]
    rw [hmem]
    constructor
    · intro hp
      refine Reach.closed (S := fun p => p ∈ hd :: ids) (fun p hp => by rw [hh] at hp; cases hp; simp) ?_ hp
      rintro p q hp ⟨n, h1, h2⟩
      rcases h2 with h2 | h2
      · have := L.next (q := q) (by rw [hdrop]; exact hp) (nx_iff.2 ⟨n, h1, h2⟩)
        rw [htail] at this
        simp only [List.mem_append, List.mem_cons, List.not_mem_nil, or_false] at this ⊢
        exact this.symm
      · have := L.prev (p := p) (q := q) (by
          rw [htail]
          simp only [List.mem_append, List.mem_cons, List.not_mem_nil, or_false] at hp ⊢
          exact hp.symm) (by rw [htail]; exact hnt) (pv_iff.2 ⟨n, h1, h2⟩)
        rwa [hdrop] at this
    · intro hp
      refine Lk.reach (R := w.Retains i) (fun p q hp hq => ?_) L ?_ p ?_
      · obtain ⟨n, h1, h2⟩ := nx_iff.1 hq
        exact .step hp ⟨n, h1, .inl h2⟩
      · intro p hp
        simp only [List.cons_append, List.head?_cons, Option.some.injEq] at hp
        subst hp
        exact .root hh
      · rw [List.cons_append, List.mem_cons, List.mem_append]
        rcases List.mem_cons.1 hp with h1 | h1
        · exact .inl h1
        · exact .inr (.inl h1)

/-! ### The sentinel -/

section Sentinel
variable [GoZero T] {α β : Type}

/-- The sentinel holds the zero value; the values of the existing nodes are as before. -/
def SentOk (s s' : DS T) : Prop :=
  (∀ hd, s'.l.head = some hd → vl s'.heap hd = some GoZero.zero) ∧ s.heap.length ≤ s'.heap.length ∧
    ∀ p, p < s.heap.length → vl s'.heap p = vl s.heap p

/-- A method keeps the sentinel zero and writes no value. -/
def KeepsVals (m : GoM (DS T) α) : Prop := ∀ s : DS T, (∀ hd, s.l.head = some hd → vl s.heap hd = some GoZero.zero) →
  match m s with
  | .ok _ s' => SentOk s s'
  | .panic s' => SentOk s s'
  | .diverge => True

theorem SentOk.trans {a b c : DS T} (h : SentOk a b) (g : SentOk b c) : SentOk a c :=
  ⟨g.1, Nat.le_trans h.2.1 g.2.1, fun p hp => (g.2.2 p (Nat.lt_of_lt_of_le hp h.2.1)).trans (h.2.2 p hp)⟩

theorem KeepsVals.bind {m : GoM (DS T) α} {f : α → GoM (DS T) β} (hm : KeepsVals m) (hf : ∀ a, KeepsVals (f a)) : KeepsVals (m >>= f) := by
  intro s hs
  have h1 := hm s hs
  rw [GoM.bind_def]
  cases h : m s with
  | ok a s1 =>
    rw [h] at h1
    have h2 := hf a s1 h1.1
    simp only
    cases h' : f a s1 with
    | ok b s2 => rw [h'] at h2; exact h1.trans h2
    | panic s2 => rw [h'] at h2; exact h1.trans h2
    | diverge => trivial
  | panic s1 => rw [h] at h1; exact h1
  | diverge => trivial

theorem KeepsVals.pure (a : α) : KeepsVals (Pure.pure a : GoM (DS T) α) := fun _ hs => ⟨hs, Nat.le_refl _, fun _ _ => rfl⟩
theorem KeepsVals.panic : KeepsVals (GoM.panic : GoM (DS T) α) := fun _ hs => ⟨hs, Nat.le_refl _, fun _ _ => rfl⟩
theorem KeepsVals.get : KeepsVals (GoM.get : GoM (DS T) (DS T)) := fun _ hs => ⟨hs, Nat.le_refl _, fun _ _ => rfl⟩
theorem KeepsVals.diverge : KeepsVals (GoM.diverge : GoM (DS T) α) := fun _ _ => trivial

theorem KeepsVals.load (p : Option Nat) : KeepsVals (DS.load p : GoM (DS T) (DNode T)) := by
  intro s hs
  cases p with
  | none => exact ⟨hs, Nat.le_refl _, fun _ _ => rfl⟩
  | some p =>
    cases hn : s.heap[p]? with
    | none => simp only [DS.load, hn]; exact ⟨hs, Nat.le_refl _, fun _ _ => rfl⟩
    | some n => simp only [DS.load, hn]; exact ⟨hs, Nat.le_refl _, fun _ _ => rfl⟩

omit [GoZero T] in
theorem vl_set {h : List (DNode T)} {p : Nat} {n n' : DNode T} (hn : h[p]? = some n) (hv : n'.value = n.value) (q : Nat) :
    vl (h.set p n') q = vl h q := by
  obtain ⟨hp, _⟩ := List.getElem?_eq_some_iff.1 hn
  by_cases hq : p = q
  · subst hq; simp only [vl, hn]; rw [List.getElem?_set_self hp]; simp [hv]
  · simp only [vl]; rw [List.getElem?_set_ne hq]

theorem KeepsVals.setNext (p v : Option Nat) : KeepsVals (DS.setNext p v : GoM (DS T) Unit) := by
  intro s hs
  cases p with
  | none => exact ⟨hs, Nat.le_refl _, fun _ _ => rfl⟩
  | some p =>
    cases hn : s.heap[p]? with
    | none => simp only [DS.setNext, hn]; exact ⟨hs, Nat.le_refl _, fun _ _ => rfl⟩
    | some n =>
      simp only [DS.setNext, hn]
      exact ⟨fun hd h => (vl_set (n' := { n with next := v }) hn rfl hd).trans (hs hd h), by simp, fun q _ => vl_set (n' := { n with next := v }) hn rfl q⟩

theorem KeepsVals.setPrev (p v : Option Nat) : KeepsVals (DS.setPrev p v : GoM (DS T) Unit) := by
  intro s hs
  cases p with
  | none => exact ⟨hs, Nat.le_refl _, fun _ _ => rfl⟩
  | some p =>
    cases hn : s.heap[p]? with
    | none => simp only [DS.setPrev, hn]; exact ⟨hs, Nat.le_refl _, fun _ _ => rfl⟩
    | some n =>
      simp only [DS.setPrev, hn]
      exact ⟨fun hd h => (vl_set (n' := { n with prev := v }) hn rfl hd).trans (hs hd h), by simp, fun q _ => vl_set (n' := { n with prev := v }) hn rfl q⟩

omit [GoZero T] in
theorem vl_append {h : List (DNode T)} {n : DNode T} {p : Nat} (hp : p < h.length) : vl (h ++ [n]) p = vl h p := by
  simp only [vl]; rw [List.getElem?_append_left hp]

omit [GoZero T] in
theorem vl_lt {h : List (DNode T)} {p : Nat} {v : T} (hp : vl h p = some v) : p < h.length := by
  simp only [vl, Option.map_eq_some_iff] at hp
  obtain ⟨n, hn, _⟩ := hp
  exact (List.getElem?_eq_some_iff.1 hn).1

theorem KeepsVals.alloc (n : DNode T) : KeepsVals (DS.alloc n : GoM (DS T) (Option Nat)) := by
  intro s hs
  exact ⟨fun hd h => (vl_append (vl_lt (hs hd h))).trans (hs hd h), by simp, fun p hp => vl_append hp⟩

theorem KeepsVals.modify {f : DS T → DS T} (h1 : ∀ s, (f s).heap = s.heap) (h2 : ∀ s, (f s).l.head = s.l.head ∨ (f s).l.head = none) :
    KeepsVals (GoM.modify f : GoM (DS T) Unit) := by
  intro s hs
  refine ⟨fun hd h => ?_, by rw [h1]; exact Nat.le_refl _, fun p _ => by rw [h1]⟩
  rw [h1]
  rcases h2 s with e | e <;> rw [e] at h
  · exact hs hd h
  · cases h

theorem KeepsVals.ite {c : Prop} [Decidable c] {a b : GoM (DS T) α} (ha : KeepsVals a) (hb : KeepsVals b) : KeepsVals (if c then a else b) := by
  split <;> assumption

theorem KeepsVals.ensureHead : KeepsVals (DL.ensureHead : GoM (DS T) Unit) := by
  intro s hs
  cases hh : s.l.head with
  | none =>
    have e : (DL.ensureHead : GoM (DS T) Unit) s = ((do DS.setPrev (some s.heap.length) (some s.heap.length); DS.setNext (some s.heap.length) (some s.heap.length)) : GoM (DS T) Unit)
        { heap := s.heap ++ [{ prev := none, next := none, value := GoZero.zero }], l := { s.l with head := some s.heap.length } } := by
      simp [DL.ensureHead, GoM.bind_def, hh, DS.alloc]
    rw [e]
    have hz : ∀ hd, some s.heap.length = some hd → vl (s.heap ++ [{ prev := none, next := none, value := GoZero.zero }]) hd = some (GoZero.zero : T) := by
      intro hd h; cases h; simp [vl]
    have k := (KeepsVals.setPrev (some s.heap.length) (some s.heap.length)).bind
      (fun _ => KeepsVals.setNext (some s.heap.length) (some s.heap.length))
      { heap := s.heap ++ [{ prev := none, next := none, value := GoZero.zero }], l := { s.l with head := some s.heap.length } } hz
    have st : SentOk s { heap := s.heap ++ [{ prev := none, next := none, value := GoZero.zero }], l := { s.l with head := some s.heap.length } } :=
      ⟨hz, by simp, fun p hp => vl_append hp⟩
    revert k
    generalize ((do DS.setPrev (some s.heap.length) (some s.heap.length); DS.setNext (some s.heap.length) (some s.heap.length)) : GoM (DS T) Unit)
        { heap := s.heap ++ [{ prev := none, next := none, value := GoZero.zero }], l := { s.l with head := some s.heap.length } } = r
    intro k
    cases r with
    | ok a s2 => exact st.trans k
    | panic s2 => exact st.trans k
    | diverge => trivial
  | some hd =>
    have e : (DL.ensureHead : GoM (DS T) Unit) s = .ok () s := by simp [DL.ensureHead, GoM.bind_def, hh]
    rw [e]
    exact ⟨hs, Nat.le_refl _, fun _ _ => rfl⟩

theorem KeepsVals.isEmpty : KeepsVals (DL.isEmpty : GoM (DS T) Bool) := .bind .get fun _ => .pure _

theorem KeepsVals.pushFront (v : T) : KeepsVals (DL.pushFront v : GoM (DS T) Unit) :=
  .bind .ensureHead fun _ => .bind .get fun _ => .bind (.load _) fun _ => .bind (.alloc _) fun _ => .bind (.load _) fun _ =>
    .bind (.setPrev _ _) fun _ => .bind (.setNext _ _) fun _ => .modify (fun _ => rfl) (fun _ => .inl rfl)

theorem KeepsVals.pushBack (v : T) : KeepsVals (DL.pushBack v : GoM (DS T) Unit) :=
  .bind .ensureHead fun _ => .bind .get fun _ => .bind (.load _) fun _ => .bind (.alloc _) fun _ => .bind (.load _) fun _ =>
    .bind (.setNext _ _) fun _ => .bind (.setPrev _ _) fun _ => .modify (fun _ => rfl) (fun _ => .inl rfl)

theorem KeepsVals.tryPopFront : KeepsVals (DL.tryPopFront : GoM (DS T) (T × Bool)) :=
  .bind .isEmpty fun _ => .ite (.pure _) (.bind .get fun _ => .bind (.load _) fun _ => .bind (.load _) fun _ => .bind (.setNext _ _) fun _ =>
    .bind (.load _) fun _ => .bind (.setPrev _ _) fun _ => .bind (.setPrev _ _) fun _ => .bind (.setNext _ _) fun _ =>
    .bind (.modify (fun _ => rfl) (fun _ => .inl rfl)) fun _ => .pure _)

theorem KeepsVals.tryPopBack : KeepsVals (DL.tryPopBack : GoM (DS T) (T × Bool)) :=
  .bind .isEmpty fun _ => .ite (.pure _) (.bind .get fun _ => .bind (.load _) fun _ => .bind (.load _) fun _ => .bind (.load _) fun _ =>
    .bind (.setPrev _ _) fun _ =>
    .bind (.load _) fun _ => .bind (.setNext _ _) fun _ => .bind (.setPrev _ _) fun _ => .bind (.setNext _ _) fun _ =>
    .bind (.modify (fun _ => rfl) (fun _ => .inl rfl)) fun _ => .pure _)

theorem KeepsVals.pushAll : ∀ vs : List T, KeepsVals (DL.pushAll vs : GoM (DS T) Unit)
  | [] => .pure _
  | v :: vs => .bind (.pushBack v) fun _ => KeepsVals.pushAll vs

theorem KeepsVals.dlistOf (vs : List T) : KeepsVals (DL.dlistOf vs : GoM (DS T) Unit) :=
  .bind (.modify (fun _ => rfl) (fun _ => .inr rfl)) fun _ => .pushAll vs

theorem KeepsVals.clear : KeepsVals (DL.clear : GoM (DS T) Unit) :=
  .bind .get fun _ => .ite (.bind (.setPrev _ _) fun _ => .bind (.setNext _ _) fun _ => .modify (fun _ => rfl) (fun _ => .inl rfl))
    (.modify (fun _ => rfl) (fun _ => .inl rfl))

theorem KeepsVals.collect : ∀ (fuel : Nat) (it : DIter), KeepsVals (DIter.collect fuel it : GoM (DS T) (List T))
  | 0, _ => .diverge
  | fuel + 1, _ => .bind (.bind .get fun _ => .pure _) fun _ => .ite (.bind (.bind (.load _) fun _ => .pure _) fun _ =>
      .bind (.bind (.load _) fun _ => .pure _) fun it => .bind (KeepsVals.collect fuel it) fun _ => .pure _) (.pure _)

theorem KeepsVals.observe {m : GoM (DS T) α} (hm : KeepsVals m) (f : α → DObs T) (s : DS T)
    (hs : ∀ hd, s.l.head = some hd → vl s.heap hd = some GoZero.zero) : SentOk s (DS.observe f m s).2 := by
  have := hm s hs
  simp only [DS.observe]
  cases h : m s with
  | ok a s1 => rw [h] at this; exact this
  | panic s1 => rw [h] at this; exact this
  | diverge => exact ⟨hs, Nat.le_refl _, fun _ _ => rfl⟩

theorem DL.exec_sent (s : DS T) (hs : ∀ hd, s.l.head = some hd → vl s.heap hd = some GoZero.zero) (op : DOp T) : SentOk s (DL.exec s op).2 := by
  cases op with
  | make vs => exact KeepsVals.observe (.dlistOf vs) _ s hs
  | pushFront v => exact KeepsVals.observe (.pushFront v) _ s hs
  | pushBack v => exact KeepsVals.observe (.pushBack v) _ s hs
  | popFront => exact KeepsVals.observe (.bind .tryPopFront fun _ => .ite .panic (.pure _)) _ s hs
  | popBack => exact KeepsVals.observe (.bind .tryPopBack fun _ => .ite .panic (.pure _)) _ s hs
  | tryPopFront => exact KeepsVals.observe .tryPopFront _ s hs
  | tryPopBack => exact KeepsVals.observe .tryPopBack _ s hs
  | front => exact KeepsVals.observe (.bind .isEmpty fun _ => .ite .panic (.bind .get fun _ => .bind (.load _) fun _ => .bind (.load _) fun _ => .pure _)) _ s hs
  | back => exact KeepsVals.observe (.bind .isEmpty fun _ => .ite .panic (.bind .get fun _ => .bind (.load _) fun _ => .bind (.load _) fun _ => .pure _)) _ s hs
  | len => exact KeepsVals.observe (.bind .get fun _ => .pure _) _ s hs
  | isEmpty => exact KeepsVals.observe .isEmpty _ s hs
  | clear => exact KeepsVals.observe .clear _ s hs
  | values => exact KeepsVals.observe (.bind (.bind .get fun _ => .ite (.bind (.load _) fun _ => .pure _) (.pure _)) fun it => .collect _ it) _ s hs

theorem DWorld.run_sent (ops : List (Nat × DOp T)) : ∀ {w : DWorld T}, (∀ i hd, (w.vars i).head = some hd → vl w.heap hd = some GoZero.zero) →
    ∀ i hd, ((w.run ops).2.vars i).head = some hd → vl (w.run ops).2.heap hd = some GoZero.zero := by
  induction ops with
  | nil => intro w h; exact h
  | cons o ops ih =>
    intro w h
    obtain ⟨i, op⟩ := o
    have k := DL.exec_sent { heap := w.heap, l := w.vars i } (h i) op
    refine ih (w := { heap := _, vars := _ }) (fun j hd hj => ?_)
    simp only at hj ⊢
    split at hj
    · exact k.1 hd hj
    · have := h j hd hj
      rw [k.2.2 hd (vl_lt this)]; exact this

end Sentinel

end Stl4go
