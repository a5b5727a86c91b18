import Verif.Spec.Deque
import Verif.Spec.ForEach
/-! # DList: ring of nodes, frame, refinement of a sequence -/
namespace Stl4go
variable {T σ : Type}

/-! ## Views of the heap -/

def nx (h : List (DNode T)) (p : Nat) : Option (Option Nat) := h[p]?.map (·.next)
def pv (h : List (DNode T)) (p : Nat) : Option (Option Nat) := h[p]?.map (·.prev)
def vl (h : List (DNode T)) (p : Nat) : Option T := h[p]?.map (·.value)

theorem view_of_lt {h : List (DNode T)} {p : Nat} (hp : p < h.length) :
    nx h p = some h[p].next ∧ pv h p = some h[p].prev ∧ vl h p = some h[p].value := by
  simp [nx, pv, vl, hp]

theorem lt_of_nx {h : List (DNode T)} {p : Nat} {x : Option Nat} (hx : nx h p = some x) : p < h.length := by
  simp only [nx, Option.map_eq_some_iff] at hx
  obtain ⟨n, hn, _⟩ := hx
  exact (List.getElem?_eq_some_iff.1 hn).1

theorem lt_of_pv {h : List (DNode T)} {p : Nat} {x : Option Nat} (hx : pv h p = some x) : p < h.length := by
  simp only [pv, Option.map_eq_some_iff] at hx
  obtain ⟨n, hn, _⟩ := hx
  exact (List.getElem?_eq_some_iff.1 hn).1

theorem DS.load_lt {s : DS T} {p : Nat} (hp : p < s.heap.length) : DS.load (some p) s = .ok s.heap[p] s := by
  simp [DS.load, hp]

theorem DS.setNext_lt {s : DS T} {p : Nat} (v : Option Nat) (hp : p < s.heap.length) :
    DS.setNext (some p) v s = .ok () { s with heap := s.heap.set p { s.heap[p] with next := v } } := by
  simp [DS.setNext, hp]

theorem DS.setPrev_lt {s : DS T} {p : Nat} (v : Option Nat) (hp : p < s.heap.length) :
    DS.setPrev (some p) v s = .ok () { s with heap := s.heap.set p { s.heap[p] with prev := v } } := by
  simp [DS.setPrev, hp]

theorem DS.setVal_lt {s : DS T} {p : Nat} (v : T) (hp : p < s.heap.length) :
    DS.setVal (some p) v s = .ok () { s with heap := s.heap.set p { s.heap[p] with value := v } } := by
  simp [DS.setVal, hp]

theorem view_setNext {h : List (DNode T)} {p : Nat} (v : Option Nat) (hp : p < h.length) (q : Nat) :
    nx (h.set p { h[p] with next := v }) q = (if q = p then some v else nx h q) ∧
    pv (h.set p { h[p] with next := v }) q = pv h q ∧ vl (h.set p { h[p] with next := v }) q = vl h q := by
  simp only [nx, pv, vl, List.getElem?_set]
  by_cases hq : q = p
  · subst hq; simp [hp]
  · simp [hq, Ne.symm hq]

theorem view_setPrev {h : List (DNode T)} {p : Nat} (v : Option Nat) (hp : p < h.length) (q : Nat) :
    nx (h.set p { h[p] with prev := v }) q = nx h q ∧
    pv (h.set p { h[p] with prev := v }) q = (if q = p then some v else pv h q) ∧ vl (h.set p { h[p] with prev := v }) q = vl h q := by
  simp only [nx, pv, vl, List.getElem?_set]
  by_cases hq : q = p
  · subst hq; simp [hp]
  · simp [hq, Ne.symm hq]

theorem view_setVal {h : List (DNode T)} {p : Nat} (v : T) (hp : p < h.length) (q : Nat) :
    nx (h.set p { h[p] with value := v }) q = nx h q ∧
    pv (h.set p { h[p] with value := v }) q = pv h q ∧ vl (h.set p { h[p] with value := v }) q = (if q = p then some v else vl h q) := by
  simp only [nx, pv, vl, List.getElem?_set]
  by_cases hq : q = p
  · subst hq; simp [hp]
  · simp [hq, Ne.symm hq]

theorem view_alloc (h : List (DNode T)) (n : DNode T) (q : Nat) :
    nx (h ++ [n]) q = (if q = h.length then some n.next else nx h q) ∧
    pv (h ++ [n]) q = (if q = h.length then some n.prev else pv h q) ∧
    vl (h ++ [n]) q = (if q = h.length then some n.value else vl h q) := by
  simp only [nx, pv, vl]
  by_cases hq : q = h.length
  · subst hq; simp
  · rcases Nat.lt_or_ge q h.length with h1 | h1
    · simp [List.getElem?_append_left h1, hq]
    · have h2 : h.length + 1 ≤ q := by omega
      rw [List.getElem?_eq_none (by simpa using h2), List.getElem?_eq_none h1]; simp [hq]

/-! ### Programs on views -/

theorem DS.load_view {h : List (DNode T)} {l : DL} {p : Nat} {a b : Option Nat} (h1 : nx h p = some a) (h2 : pv h p = some b) :
    ∃ v, vl h p = some v ∧ DS.load (some p) ⟨h, l⟩ = .ok ⟨b, a, v⟩ ⟨h, l⟩ := by
  have hp := lt_of_nx h1
  obtain ⟨e1, e2, e3⟩ := view_of_lt hp
  rw [e1] at h1; rw [e2] at h2
  injection h1 with h1; injection h2 with h2
  refine ⟨_, e3, ?_⟩
  rw [DS.load_lt hp, ← h1, ← h2]

theorem DS.setNext_view {h : List (DNode T)} {l : DL} {p : Nat} (v : Option Nat) (hp : p < h.length) :
    ∃ h', DS.setNext (some p) v ⟨h, l⟩ = .ok () ⟨h', l⟩ ∧ (∀ q, nx h' q = if q = p then some v else nx h q) ∧ (∀ q, pv h' q = pv h q) ∧
      (∀ q, vl h' q = vl h q) ∧ h'.length = h.length :=
  ⟨_, DS.setNext_lt v hp, fun q => (view_setNext v hp q).1, fun q => (view_setNext v hp q).2.1, fun q => (view_setNext v hp q).2.2, by simp⟩

theorem DS.setPrev_view {h : List (DNode T)} {l : DL} {p : Nat} (v : Option Nat) (hp : p < h.length) :
    ∃ h', DS.setPrev (some p) v ⟨h, l⟩ = .ok () ⟨h', l⟩ ∧ (∀ q, nx h' q = nx h q) ∧ (∀ q, pv h' q = if q = p then some v else pv h q) ∧
      (∀ q, vl h' q = vl h q) ∧ h'.length = h.length :=
  ⟨_, DS.setPrev_lt v hp, fun q => (view_setPrev v hp q).1, fun q => (view_setPrev v hp q).2.1, fun q => (view_setPrev v hp q).2.2, by simp⟩

theorem DS.setVal_view {h : List (DNode T)} {l : DL} {p : Nat} (v : T) (hp : p < h.length) :
    ∃ h', DS.setVal (some p) v ⟨h, l⟩ = .ok () ⟨h', l⟩ ∧ (∀ q, nx h' q = nx h q) ∧ (∀ q, pv h' q = pv h q) ∧
      (∀ q, vl h' q = if q = p then some v else vl h q) ∧ h'.length = h.length :=
  ⟨_, DS.setVal_lt v hp, fun q => (view_setVal v hp q).1, fun q => (view_setVal v hp q).2.1, fun q => (view_setVal v hp q).2.2, by simp⟩

theorem DS.alloc_view (h : List (DNode T)) (l : DL) (n : DNode T) :
    ∃ h', DS.alloc n ⟨h, l⟩ = .ok (some h.length) ⟨h', l⟩ ∧ (∀ q, nx h' q = if q = h.length then some n.next else nx h q) ∧
      (∀ q, pv h' q = if q = h.length then some n.prev else pv h q) ∧
      (∀ q, vl h' q = if q = h.length then some n.value else vl h q) ∧ h'.length = h.length + 1 :=
  ⟨_, rfl, fun q => (view_alloc h n q).1, fun q => (view_alloc h n q).2.1, fun q => (view_alloc h n q).2.2, by simp⟩

/-! ## Linked sequences -/

/-- Neighbours in the sequence point at each other. -/
def Lk (h : List (DNode T)) : List Nat → Prop
  | x :: y :: t => (nx h x = some (some y) ∧ pv h y = some (some x)) ∧ Lk h (y :: t)
  | _ => True

theorem Lk.congr {h h' : List (DNode T)} : ∀ {l : List Nat}, (∀ x ∈ l.dropLast, nx h' x = nx h x) → (∀ x ∈ l.tail, pv h' x = pv h x) →
    Lk h l → Lk h' l
  | [], _, _, _ => trivial
  | [_], _, _, _ => trivial
  | x :: y :: t, h1, h2, h3 => by
    refine ⟨⟨by rw [h1 x (by simp)]; exact h3.1.1, by rw [h2 y (by simp)]; exact h3.1.2⟩, Lk.congr ?_ ?_ h3.2⟩
    · intro z hz; exact h1 z (by rw [List.dropLast_cons_of_ne_nil (by simp)]; simp [hz])
    · intro z hz; exact h2 z (by simp at hz ⊢; exact .inr hz)

theorem Lk.append {h : List (DNode T)} {x : Nat} : ∀ {A B : List Nat}, Lk h (A ++ x :: B) ↔ Lk h (A ++ [x]) ∧ Lk h (x :: B)
  | [], B => by simp [Lk]
  | [a], B => by simp [Lk]
  | a :: b :: A, B => by
    have := Lk.append (h := h) (x := x) (A := b :: A) (B := B)
    simp only [List.cons_append, Lk] at this ⊢
    rw [this]
    constructor
    · rintro ⟨h1, h2, h3⟩; exact ⟨⟨h1, h2⟩, h3⟩
    · rintro ⟨⟨h1, h2⟩, h3⟩; exact ⟨h1, h2, h3⟩

/-- Nodes that belong to a list. -/
def foot (l : DL) (ids : List Nat) : List Nat := l.head.toList ++ ids

/-- The list `l` has the element nodes `ids`, holding the values `s`. -/
structure DInv (h : List (DNode T)) (l : DL) (ids : List Nat) (s : List T) : Prop where
  empty : l.head = none → ids = []
  nodup : (foot l ids).Nodup
  lk : ∀ hd, l.head = some hd → Lk h (hd :: ids ++ [hd])
  vals : ids.map (vl h) = s.map some
  len : l.length = s.length
  bound : ∀ q ∈ foot l ids, q < h.length

/-- Nodes outside `ft` are as before. -/
structure DFrame (h h' : List (DNode T)) (ft : List Nat) : Prop where
  mono : h.length ≤ h'.length
  same : ∀ q, q < h.length → q ∉ ft → nx h' q = nx h q ∧ pv h' q = pv h q ∧ vl h' q = vl h q

theorem DFrame.refl (h : List (DNode T)) (ft : List Nat) : DFrame h h ft := ⟨Nat.le_refl _, fun _ _ _ => ⟨rfl, rfl, rfl⟩⟩

theorem DFrame.trans {h1 h2 h3 : List (DNode T)} {f1 f2 : List Nat} (a : DFrame h1 h2 f1) (b : DFrame h2 h3 f2)
    (hf : ∀ q ∈ f2, q ∈ f1 ∨ h1.length ≤ q) : DFrame h1 h3 f1 := by
  refine ⟨Nat.le_trans a.mono b.mono, fun q hq hn => ?_⟩
  have h2n : q ∉ f2 := fun hc => by
    rcases hf q hc with h | h
    · exact hn h
    · omega
  obtain ⟨a1, a2, a3⟩ := a.same q hq hn
  obtain ⟨b1, b2, b3⟩ := b.same q (Nat.lt_of_lt_of_le hq a.mono) h2n
  exact ⟨by rw [b1, a1], by rw [b2, a2], by rw [b3, a3]⟩

/-- A list keeps its contents when nodes outside it change. -/
theorem DInv.frame {h h' : List (DNode T)} {l : DL} {ids ft : List Nat} {s : List T} (i : DInv h l ids s) (f : DFrame h h' ft)
    (hd : ∀ q ∈ foot l ids, q ∉ ft) : DInv h' l ids s where
  empty := i.empty
  nodup := i.nodup
  lk := fun hd' e => by
    refine Lk.congr ?_ ?_ (i.lk hd' e)
    · intro x hx
      rw [List.dropLast_concat] at hx
      have hm : x ∈ foot l ids := by simp [foot, e]; simpa using hx
      exact (f.same x (i.bound x hm) (hd x hm)).1
    · intro x hx
      have hm : x ∈ foot l ids := by simp [foot, e] at hx ⊢; exact hx.symm
      exact (f.same x (i.bound x hm) (hd x hm)).2.1
  vals := by
    rw [← i.vals]; apply List.map_congr_left; intro x hx
    have hm : x ∈ foot l ids := by simp [foot, hx]
    exact (f.same x (i.bound x hm) (hd x hm)).2.2
  len := i.len
  bound := fun q hq => Nat.lt_of_lt_of_le (i.bound q hq) f.mono

/-! ## Operations -/

theorem DInv.ensureHead [GoZero T] {h : List (DNode T)} {l : DL} {ids : List Nat} {s : List T} (i : DInv h l ids s) :
    ∃ h' l' hd, (DL.ensureHead (T := T)) ⟨h, l⟩ = .ok () ⟨h', l'⟩ ∧ l'.head = some hd ∧ DInv h' l' ids s ∧ DFrame h h' (foot l ids) ∧
      (∀ q ∈ foot l' ids, q ∈ foot l ids ∨ h.length ≤ q) ∧ ∀ x, l.head = some x → x = hd := by
  cases hh : l.head with
  | some hd =>
    refine ⟨h, l, hd, ?_, hh, i, DFrame.refl _ _, fun q hq => .inl hq, fun x hx => by injection hx with hx; exact hx.symm⟩
    simp [DL.ensureHead, GoM.bind_def, hh]
  | none =>
    obtain ⟨h1, e1, n1, p1, v1, l1⟩ := DS.alloc_view h l { prev := none, next := none, value := (GoZero.zero : T) }
    obtain ⟨h2, e2, n2, p2, v2, l2⟩ := DS.setPrev_view (h := h1) (l := { l with head := some h.length }) (p := h.length) (some h.length) (by omega)
    obtain ⟨h3, e3, n3, p3, v3, l3⟩ := DS.setNext_view (h := h2) (l := { l with head := some h.length }) (p := h.length) (some h.length) (by omega)
    have hids := i.empty hh
    subst hids
    have hs : s = [] := by have := i.vals; simpa using this.symm
    subst hs
    refine ⟨h3, { l with head := some h.length }, h.length, ?_, rfl, ⟨by simp, by simp [foot], ?_, rfl, i.len, ?_⟩, ⟨by omega, ?_⟩, ?_,
      by simp⟩
    · simp [DL.ensureHead, GoM.bind_def, hh, e1, e2, e3]
    · intro hd e
      injection e with e; subst e
      simp [Lk, n3, p3, p2]
    · intro q hq; simp [foot] at hq; omega
    · intro q hq _
      have : q ≠ h.length := by omega
      simp [n3, n2, n1, p3, p2, p1, v3, v2, v1, this]
    · intro q hq; simp [foot] at hq; omega

/-- The successor of the head: first element or the head itself. -/
theorem ring_first {h : List (DNode T)} {hd : Nat} {ids : List Nat} (L : Lk h (hd :: ids ++ [hd])) (hn : (hd :: ids).Nodup) :
    ∃ f r, ids ++ [hd] = f :: r ∧ nx h hd = some (some f) ∧ pv h f = some (some hd) ∧ Lk h (f :: r) ∧ f ∉ r ∧
      (∀ x ∈ (f :: r).dropLast, x ∈ ids) := by
  cases hx : ids ++ [hd] with
  | nil => simp at hx
  | cons f r =>
    rw [List.cons_append, hx] at L
    refine ⟨f, r, rfl, L.1.1, L.1.2, L.2, ?_, ?_⟩
    · have : (ids ++ [hd]).Nodup := by
        rw [List.nodup_cons] at hn
        rw [List.nodup_append]
        exact ⟨hn.2, by simp, by intro a ha b hb; simp at hb; subst hb; intro e; subst e; exact hn.1 ha⟩
      rw [hx, List.nodup_cons] at this
      exact this.1
    · intro x hxx; rw [← hx, List.dropLast_concat] at hxx; exact hxx

/-- The predecessor of the head: last element or the head itself. -/
theorem ring_last {h : List (DNode T)} {hd : Nat} {ids : List Nat} (L : Lk h (hd :: ids ++ [hd])) (hn : (hd :: ids).Nodup) :
    ∃ b r, hd :: ids = r ++ [b] ∧ nx h b = some (some hd) ∧ pv h hd = some (some b) ∧ Lk h (r ++ [b]) ∧ b ∉ r := by
  obtain ⟨r, b, hx⟩ : ∃ r b, hd :: ids = r ++ [b] :=
    ⟨(hd :: ids).dropLast, (hd :: ids).getLast (by simp), (List.dropLast_concat_getLast (by simp)).symm⟩
  rw [hx, List.append_assoc, List.singleton_append, Lk.append] at L
  refine ⟨b, r, hx, L.2.1.1, L.2.1.2, L.1, ?_⟩
  rw [hx, List.nodup_append] at hn
  intro hb; exact hn.2.2 b hb b (by simp) rfl

theorem foot_some {l : DL} {hd : Nat} (ids : List Nat) (e : l.head = some hd) : foot l ids = hd :: ids := by simp [foot, e]

theorem DInv.pushFront [GoZero T] {h : List (DNode T)} {l : DL} {ids : List Nat} {s : List T} (i : DInv h l ids s) (v : T) :
    ∃ h' l' ids', (DL.pushFront v) ⟨h, l⟩ = .ok () ⟨h', l'⟩ ∧ DInv h' l' ids' (v :: s) ∧ DFrame h h' (foot l ids) ∧
      (∀ q ∈ foot l' ids', q ∈ foot l ids ∨ h.length ≤ q) ∧ (∃ p, ids' = p :: ids) ∧ ∃ hd, l'.head = some hd ∧ ∀ x, l.head = some x → x = hd := by
  obtain ⟨h0, l0, hd, e0, hhd, i0, f0, s0, k0⟩ := i.ensureHead
  have hnd : (hd :: ids).Nodup := by rw [← foot_some ids hhd]; exact i0.nodup
  have hb : ∀ q ∈ hd :: ids, q < h0.length := by rw [← foot_some ids hhd]; exact i0.bound
  obtain ⟨f, r, hfr, a1, a2, a3, a4, a5⟩ := ring_first (i0.lk hd hhd) hnd
  have hf : f ∈ hd :: ids := by have : f ∈ ids ++ [hd] := by rw [hfr]; simp
                                simp at this ⊢; exact this.symm
  have hhl := hb hd (by simp)
  have hfl := hb f hf
  obtain ⟨_, pvhd, _⟩ := view_of_lt hhl
  obtain ⟨hv, _, ld⟩ := DS.load_view (l := l0) a1 pvhd
  obtain ⟨h1, e1, n1, p1, v1, l1⟩ := DS.alloc_view h0 l0 { prev := some hd, next := some f, value := v }
  have a1' : nx h1 hd = some (some f) := by rw [n1, if_neg (by omega), a1]
  obtain ⟨_, pvhd1, _⟩ := view_of_lt (h := h1) (p := hd) (by omega)
  obtain ⟨hv1, _, ld1⟩ := DS.load_view (l := l0) a1' pvhd1
  obtain ⟨h2, e2, n2, p2, v2, l2⟩ := DS.setPrev_view (h := h1) (l := l0) (p := f) (some h0.length) (by omega)
  obtain ⟨h3, e3, n3, p3, v3, l3⟩ := DS.setNext_view (h := h2) (l := l0) (p := hd) (some h0.length) (by omega)
  have hp : h0.length ∉ hd :: ids := fun hc => by have := hb _ hc; omega
  have fin : DFrame h0 h3 (foot l0 ids) := by
    refine ⟨by omega, fun q hq hn => ?_⟩
    rw [foot_some ids hhd] at hn
    have q1 : q ≠ hd := by rintro rfl; exact hn (by simp)
    have q2 : q ≠ f := by rintro rfl; exact hn hf
    have q3 : q ≠ h0.length := by omega
    simp [n3, n2, n1, p3, p2, p1, v3, v2, v1, q1, q2, q3]
  refine ⟨h3, { l0 with length := l0.length + 1 }, h0.length :: ids, ?_, ⟨by simp [hhd], ?_, ?_, ?_, ?_, ?_⟩, f0.trans fin s0, ?_,
    ⟨_, rfl⟩, hd, hhd, k0⟩
  · simp only [DL.pushFront, GoM.bind_def, e0, GoM.get_apply, hhd, ld, e1, ld1, e2, e3, GoM.modify_apply]
  · show ({ l0 with length := l0.length + 1 } : DL).head.toList ++ _ |>.Nodup
    simp only [hhd]
    rw [List.nodup_cons] at hnd
    simp at hp
    simp [hnd, hp]
    exact fun hc => hp.1 hc.symm
  · intro hd' e
    have : hd' = hd := by simpa [hhd] using e.symm
    subst this
    rw [List.cons_append, List.cons_append, hfr]
    refine ⟨⟨by simp [n3], ?_⟩, ⟨?_, by simp [p3, p2]⟩, Lk.congr ?_ ?_ a3⟩
    · rw [p3, p2, if_neg (by omega), p1, if_pos rfl]
    · rw [n3, if_neg (by omega), n2, n1, if_pos rfl]
    · intro x hx
      have hxi := a5 x hx
      have x1 : x ≠ hd' := by rintro rfl; exact (List.nodup_cons.1 hnd).1 hxi
      have x2 := hb x (by simp [hxi])
      rw [n3, if_neg x1, n2, n1, if_neg (by omega)]
    · intro x hx
      simp at hx
      have x1 : x ≠ f := by rintro rfl; exact a4 hx
      have x2 : x ∈ hd' :: ids := by have : x ∈ ids ++ [hd'] := by rw [hfr]; simp [hx]
                                     simp at this ⊢; exact this.symm
      have x3 := hb x x2
      rw [p3, p2, if_neg x1, p1, if_neg (by omega)]
  · rw [List.map_cons, List.map_cons, v3, v2, v1, if_pos rfl, ← i0.vals]
    congr 1
    apply List.map_congr_left; intro x hx
    have := hb x (by simp [hx])
    rw [v3, v2, v1, if_neg (by omega)]
  · simp [i0.len]
  · intro q hq
    simp [foot, hhd] at hq
    rcases hq with rfl | rfl | hq
    · omega
    · omega
    · have := hb q (by simp [hq]); omega
  · intro q hq
    simp [foot, hhd] at hq
    rcases hq with rfl | rfl | hq
    · exact s0 q (by simp [foot, hhd])
    · exact .inr f0.mono
    · exact s0 q (by simp [foot, hq])

theorem DInv.pushBack [GoZero T] {h : List (DNode T)} {l : DL} {ids : List Nat} {s : List T} (i : DInv h l ids s) (v : T) :
    ∃ h' l' ids', (DL.pushBack v) ⟨h, l⟩ = .ok () ⟨h', l'⟩ ∧ DInv h' l' ids' (s ++ [v]) ∧ DFrame h h' (foot l ids) ∧
      (∀ q ∈ foot l' ids', q ∈ foot l ids ∨ h.length ≤ q) ∧ (∃ p, ids' = ids ++ [p]) ∧ ∃ hd, l'.head = some hd ∧ ∀ x, l.head = some x → x = hd := by
  obtain ⟨h0, l0, hd, e0, hhd, i0, f0, s0, k0⟩ := i.ensureHead
  have hnd : (hd :: ids).Nodup := by rw [← foot_some ids hhd]; exact i0.nodup
  have hb : ∀ q ∈ hd :: ids, q < h0.length := by rw [← foot_some ids hhd]; exact i0.bound
  obtain ⟨b, r, hbr, a1, a2, a3, a4⟩ := ring_last (i0.lk hd hhd) hnd
  have hbm : b ∈ hd :: ids := by rw [hbr]; simp
  have hhl := hb hd (by simp)
  have hfl := hb b hbm
  obtain ⟨nxhd, _, _⟩ := view_of_lt hhl
  obtain ⟨hv, _, ld⟩ := DS.load_view (l := l0) nxhd a2
  obtain ⟨h1, e1, n1, p1, v1, l1⟩ := DS.alloc_view h0 l0 { prev := some b, next := some hd, value := v }
  have a2' : pv h1 hd = some (some b) := by rw [p1, if_neg (by omega), a2]
  obtain ⟨nxhd1, _, _⟩ := view_of_lt (h := h1) (p := hd) (by omega)
  obtain ⟨hv1, _, ld1⟩ := DS.load_view (l := l0) nxhd1 a2'
  obtain ⟨h2, e2, n2, p2, v2, l2⟩ := DS.setNext_view (h := h1) (l := l0) (p := b) (some h0.length) (by omega)
  obtain ⟨h3, e3, n3, p3, v3, l3⟩ := DS.setPrev_view (h := h2) (l := l0) (p := hd) (some h0.length) (by omega)
  have hp : h0.length ∉ hd :: ids := fun hc => by have := hb _ hc; omega
  have fin : DFrame h0 h3 (foot l0 ids) := by
    refine ⟨by omega, fun q hq hn => ?_⟩
    rw [foot_some ids hhd] at hn
    have q1 : q ≠ hd := by rintro rfl; exact hn (by simp)
    have q2 : q ≠ b := by rintro rfl; exact hn hbm
    have q3 : q ≠ h0.length := by omega
    simp [n3, n2, n1, p3, p2, p1, v3, v2, v1, q1, q2, q3]
  refine ⟨h3, { l0 with length := l0.length + 1 }, ids ++ [h0.length], ?_, ⟨by simp [hhd], ?_, ?_, ?_, ?_, ?_⟩, f0.trans fin s0, ?_,
    ⟨_, rfl⟩, hd, hhd, k0⟩
  · simp only [DL.pushBack, GoM.bind_def, e0, GoM.get_apply, hhd, ld, e1, ld1, e2, e3, GoM.modify_apply]
  · simp only [foot, hhd, Option.toList_some, List.singleton_append]
    rw [← List.cons_append, List.nodup_append]
    refine ⟨hnd, by simp, ?_⟩
    intro x hx y hy; simp at hy; subst hy; rintro rfl; exact hp hx
  · intro hd' e
    have : hd' = hd := by simpa [hhd] using e.symm
    subst this
    rw [← List.cons_append, hbr, List.append_assoc, List.append_assoc, List.singleton_append, Lk.append]
    refine ⟨Lk.congr ?_ ?_ a3, ⟨by simp [n3, n2], ?_⟩, ⟨?_, by simp [p3]⟩, trivial⟩
    · intro x hx
      rw [List.dropLast_concat] at hx
      have x1 : x ≠ b := by rintro rfl; exact a4 hx
      have x2 : x ∈ hd' :: ids := by rw [hbr]; simp [hx]
      have x3 := hb x x2
      rw [n3, n2, if_neg x1, n1, if_neg (by omega)]
    · intro x hx
      rw [← hbr] at hx
      simp at hx
      have x1 : x ≠ hd' := by rintro rfl; exact (List.nodup_cons.1 hnd).1 hx
      have x2 := hb x (by simp [hx])
      rw [p3, if_neg x1, p2, p1, if_neg (by omega)]
    · rw [p3, if_neg (by omega), p2, p1, if_pos rfl]
    · rw [n3, n2, if_neg (by omega), n1, if_pos rfl]
  · rw [List.map_append, List.map_append, ← i0.vals]
    congr 1
    · apply List.map_congr_left; intro x hx
      have := hb x (by simp [hx])
      rw [v3, v2, v1, if_neg (by omega)]
    · simp [v3, v2, v1]
  · simp [i0.len]
  · intro q hq
    simp [foot, hhd] at hq
    rcases hq with rfl | hq | rfl
    · omega
    · have := hb q (by simp [hq]); omega
    · omega
  · intro q hq
    simp [foot, hhd] at hq
    rcases hq with rfl | hq | rfl
    · exact s0 q (by simp [foot, hhd])
    · exact s0 q (by simp [foot, hq])
    · exact .inr f0.mono

theorem DInv.isEmpty {h : List (DNode T)} {l : DL} {ids : List Nat} {s : List T} (i : DInv h l ids s) :
    (DL.isEmpty (T := T)) ⟨h, l⟩ = .ok s.isEmpty ⟨h, l⟩ := by
  simp only [DL.isEmpty, GoM.bind_def, GoM.get_apply, GoM.pure_apply, i.len]
  cases s with
  | nil => rfl
  | cons => simp; omega

theorem DInv.head_of_ne {h : List (DNode T)} {l : DL} {ids : List Nat} {s : List T} (i : DInv h l ids s) (hs : s ≠ []) :
    ∃ hd, l.head = some hd ∧ ids ≠ [] := by
  have hids : ids ≠ [] := by
    rintro rfl; have := i.vals; simp at this; exact hs this
  cases hh : l.head with
  | none => exact absurd (i.empty hh) hids
  | some hd => exact ⟨hd, rfl, hids⟩

theorem DInv.length_ids {h : List (DNode T)} {l : DL} {ids : List Nat} {s : List T} (i : DInv h l ids s) : ids.length = s.length := by
  have := congrArg List.length i.vals; simpa using this

theorem DInv.tryPopFront_cons [GoZero T] {h : List (DNode T)} {l : DL} {ids : List Nat} {v : T} {s : List T} (i : DInv h l ids (v :: s)) :
    ∃ h' l' ids', (DL.tryPopFront (T := T)) ⟨h, l⟩ = .ok (v, true) ⟨h', l'⟩ ∧ DInv h' l' ids' s ∧ DFrame h h' (foot l ids) ∧
      (∀ q ∈ foot l' ids', q ∈ foot l ids ∨ h.length ≤ q) ∧ (∃ q, ids = q :: ids' ∧ nx h' q = some none ∧ vl h' q = some v) ∧ l'.head = l.head := by
  obtain ⟨hd, hhd, hne⟩ := i.head_of_ne (by simp)
  have hnd : (hd :: ids).Nodup := by rw [← foot_some ids hhd]; exact i.nodup
  have hb : ∀ q ∈ hd :: ids, q < h.length := by rw [← foot_some ids hhd]; exact i.bound
  cases ids with
  | nil => exact absurd rfl hne
  | cons q ids =>
    have L := i.lk hd hhd
    have hvq : vl h q = some v := by have := i.vals; simp at this; exact this.1
    have hvs : ids.map (vl h) = s.map some := by have := i.vals; simp at this; simpa using this.2
    have hqd : q ≠ hd := by rintro rfl; simp at hnd
    have hqi : q ∉ ids := by simp at hnd; exact hnd.2.1
    have hdi : hd ∉ ids := by simp at hnd; exact fun hc => hnd.1.2 hc
    obtain ⟨f, r, hfr⟩ : ∃ f r, ids ++ [hd] = f :: r := by
      cases hx : ids ++ [hd] with
      | nil => simp at hx
      | cons f r => exact ⟨f, r, rfl⟩
    rw [List.cons_append, List.cons_append, hfr] at L
    obtain ⟨⟨n1, p1⟩, ⟨n2, p2⟩, L3⟩ := L
    have hf : f ∈ hd :: ids := by have : f ∈ ids ++ [hd] := by rw [hfr]; simp
                                  simp at this ⊢; exact this.symm
    have hqf : f ≠ q := by rintro rfl; simp at hf; rcases hf with rfl | hf; exact hqd rfl; exact hqi hf
    have hdl := hb hd (by simp)
    have hql := hb q (by simp)
    have hfl : f < h.length := hb f (by simp at hf ⊢; rcases hf with hf | hf <;> simp [hf])
    obtain ⟨_, pvhd, _⟩ := view_of_lt hdl
    obtain ⟨w1, _, ld1⟩ := DS.load_view (l := l) n1 pvhd
    obtain ⟨w2, hw2, ld2⟩ := DS.load_view (l := l) n2 p1
    rw [hvq] at hw2; injection hw2 with hw2; subst hw2
    obtain ⟨h1, e1, m1, o1, u1, l1⟩ := DS.setNext_view (h := h) (l := l) (p := hd) (some f) hdl
    obtain ⟨_, pvhd1, _⟩ := view_of_lt (h := h1) (p := hd) (by omega)
    obtain ⟨w3, _, ld3⟩ := DS.load_view (h := h1) (l := l) (p := hd) (by rw [m1, if_pos rfl]) pvhd1
    obtain ⟨h2, e2, m2, o2, u2, l2⟩ := DS.setPrev_view (h := h1) (l := l) (p := f) (some hd) (by omega)
    obtain ⟨h3, e3, m3, o3, u3, l3⟩ := DS.setPrev_view (h := h2) (l := l) (p := q) none (by omega)
    obtain ⟨h4, e4, m4, o4, u4, l4⟩ := DS.setNext_view (h := h3) (l := l) (p := q) none (by omega)
    refine ⟨h4, { l with length := l.length - 1 }, ids, ?_, ⟨by simp [hhd], ?_, ?_, ?_, ?_, ?_⟩, ⟨by omega, ?_⟩, ?_,
      ⟨q, rfl, by rw [m4, if_pos rfl], by rw [u4, u3, u2, u1, hvq]⟩, rfl⟩
    · have he := i.isEmpty
      simp only [List.isEmpty_cons] at he
      simp [DL.tryPopFront, GoM.bind_def, he, hhd, ld1, ld2, e1, ld3, e2, e3, e4]
    · simp only [foot, hhd, Option.toList_some, List.singleton_append]
      simp at hnd ⊢
      exact ⟨hdi, hnd.2.2⟩
    · intro hd' e
      have : hd' = hd := by simpa [hhd] using e.symm
      subst this
      rw [List.cons_append, hfr]
      refine ⟨⟨by rw [m4, if_neg (Ne.symm hqd), m3, m2, m1, if_pos rfl], by rw [o4, o3, if_neg hqf, o2, if_pos rfl]⟩, Lk.congr ?_ ?_ L3⟩
      · intro x hx
        rw [← hfr, List.dropLast_concat] at hx
        have x1 : x ≠ q := by rintro rfl; exact hqi hx
        have x2 : x ≠ hd' := by rintro rfl; exact hdi hx
        rw [m4, if_neg x1, m3, m2, m1, if_neg x2]
      · intro x hx
        simp at hx
        have x2 : x ≠ f := by
          rintro rfl
          have hn2 : (ids ++ [hd']).Nodup := by
            simp at hnd
            rw [List.nodup_append]
            exact ⟨hnd.2.2, by simp, by intro a ha b hb; simp at hb; subst hb; rintro rfl; exact hdi ha⟩
          rw [hfr, List.nodup_cons] at hn2
          exact hn2.1 hx
        have x1 : x ≠ q := by
          have : x ∈ ids ++ [hd'] := by rw [hfr]; simp [hx]
          simp at this
          rintro rfl
          rcases this with hc | hc
          · exact hqi hc
          · exact hqd hc
        rw [o4, o3, if_neg x1, o2, if_neg x2, o1]
    · rw [← hvs]; apply List.map_congr_left; intro x _
      rw [u4, u3, u2, u1]
    · simp [i.len]
    · intro x hx
      simp [foot, hhd] at hx
      rcases hx with rfl | hx
      · omega
      · have := hb x (by simp [hx]); omega
    · intro x hx hn
      rw [foot_some _ hhd] at hn
      have x1 : x ≠ hd := by rintro rfl; exact hn (by simp)
      have x2 : x ≠ q := by rintro rfl; exact hn (by simp)
      have x3 : x ≠ f := by rintro rfl; exact hn (by simp at hf ⊢; rcases hf with hf | hf <;> simp [hf])
      simp [m4, m3, m2, m1, o4, o3, o2, o1, u4, u3, u2, u1, x1, x2, x3]
    · intro x hx
      simp [foot, hhd] at hx ⊢
      rcases hx with hx | hx <;> simp [hx]

theorem DInv.tryPopBack_concat [GoZero T] {h : List (DNode T)} {l : DL} {ids : List Nat} {v : T} {s : List T} (i : DInv h l ids (s ++ [v])) :
    ∃ h' l' ids', (DL.tryPopBack (T := T)) ⟨h, l⟩ = .ok (v, true) ⟨h', l'⟩ ∧ DInv h' l' ids' s ∧ DFrame h h' (foot l ids) ∧
      (∀ q ∈ foot l' ids', q ∈ foot l ids ∨ h.length ≤ q) ∧ (∃ q, ids = ids' ++ [q] ∧ nx h' q = some none ∧ vl h' q = some v) ∧ l'.head = l.head := by
  obtain ⟨hd, hhd, hne⟩ := i.head_of_ne (by simp)
  have hnd : (hd :: ids).Nodup := by rw [← foot_some ids hhd]; exact i.nodup
  have hb : ∀ q ∈ hd :: ids, q < h.length := by rw [← foot_some ids hhd]; exact i.bound
  obtain ⟨ids', q, rfl⟩ : ∃ ids' q, ids = ids' ++ [q] :=
    ⟨ids.dropLast, ids.getLast hne, (List.dropLast_concat_getLast hne).symm⟩
  have hvals := i.vals
  rw [List.map_append, List.map_append] at hvals
  have hvs : ids'.map (vl h) = s.map some := (List.append_inj' hvals (by simp)).1
  have hvq : vl h q = some v := by have := (List.append_inj' hvals (by simp)).2; simpa using this
  have L := i.lk hd hhd
  have hn0 : hd ∉ ids' ++ [q] ∧ (ids' ++ [q]).Nodup := List.nodup_cons.1 hnd
  have hqd : q ≠ hd := by rintro rfl; exact hn0.1 (by simp)
  have hdi : hd ∉ ids' := fun hc => hn0.1 (by simp [hc])
  have hn1 := List.nodup_append.1 hn0.2
  have hqi : q ∉ ids' := fun hc => hn1.2.2 q hc q (by simp) rfl
  obtain ⟨r, b, hbr⟩ : ∃ r b, hd :: ids' = r ++ [b] :=
    ⟨(hd :: ids').dropLast, (hd :: ids').getLast (by simp), (List.dropLast_concat_getLast (by simp)).symm⟩
  rw [← List.cons_append, hbr, List.append_assoc, List.append_assoc, List.singleton_append, Lk.append] at L
  obtain ⟨L1, ⟨n1, p1⟩, ⟨n2, p2⟩, _⟩ := L
  have hbm : b ∈ hd :: ids' := by rw [hbr]; simp
  have hbr' : b ∉ r := by
    have : (hd :: ids').Nodup := List.nodup_cons.2 ⟨hdi, hn1.1⟩
    rw [hbr, List.nodup_append] at this
    intro hc; exact this.2.2 b hc b (by simp) rfl
  have hqb : b ≠ q := by rintro rfl; simp at hbm; rcases hbm with rfl | hc; exact hqd rfl; exact hqi hc
  have hdl := hb hd (by simp)
  have hql := hb q (by simp)
  have hbl : b < h.length := hb b (by simp at hbm ⊢; rcases hbm with hc | hc <;> simp [hc])
  obtain ⟨nxhd, _, _⟩ := view_of_lt hdl
  obtain ⟨w1, _, ld1⟩ := DS.load_view (l := l) nxhd p2
  obtain ⟨w2, hw2, ld2⟩ := DS.load_view (l := l) n2 p1
  rw [hvq] at hw2; injection hw2 with hw2; subst hw2
  obtain ⟨h1, e1, m1, o1, u1, l1⟩ := DS.setPrev_view (h := h) (l := l) (p := hd) (some b) hdl
  obtain ⟨nxhd1, _, _⟩ := view_of_lt (h := h1) (p := hd) (by omega)
  obtain ⟨w3, _, ld3⟩ := DS.load_view (h := h1) (l := l) (p := hd) nxhd1 (by rw [o1, if_pos rfl])
  obtain ⟨h2, e2, m2, o2, u2, l2⟩ := DS.setNext_view (h := h1) (l := l) (p := b) (some hd) (by omega)
  obtain ⟨h3, e3, m3, o3, u3, l3⟩ := DS.setPrev_view (h := h2) (l := l) (p := q) none (by omega)
  obtain ⟨h4, e4, m4, o4, u4, l4⟩ := DS.setNext_view (h := h3) (l := l) (p := q) none (by omega)
  refine ⟨h4, { l with length := l.length - 1 }, ids', ?_, ⟨by simp [hhd], ?_, ?_, ?_, ?_, ?_⟩, ⟨by omega, ?_⟩, ?_,
    ⟨q, rfl, by rw [m4, if_pos rfl], by rw [u4, u3, u2, u1, hvq]⟩, rfl⟩
  · have he := i.isEmpty
    have : (s ++ [v]).isEmpty = false := by cases s <;> rfl
    rw [this] at he
    simp [DL.tryPopBack, GoM.bind_def, he, hhd, ld1, ld2, e1, ld3, e2, e3, e4]
  · simp only [foot, hhd, Option.toList_some, List.singleton_append]
    exact List.nodup_cons.2 ⟨hdi, hn1.1⟩
  · intro hd' e
    have : hd' = hd := by simpa [hhd] using e.symm
    subst this
    rw [hbr, List.append_assoc, List.singleton_append, Lk.append]
    refine ⟨Lk.congr ?_ ?_ L1, ⟨by rw [m4, if_neg hqb, m3, m2, if_pos rfl], by rw [o4, o3, if_neg (Ne.symm hqd), o2, o1, if_pos rfl]⟩, trivial⟩
    · intro x hx
      rw [List.dropLast_concat] at hx
      have hxm : x ∈ hd' :: ids' := by rw [hbr]; simp [hx]
      have x1 : x ≠ q := by
        rintro rfl; simp at hxm; rcases hxm with hc | hc
        · exact hqd hc
        · exact hqi hc
      have x2 : x ≠ b := by rintro rfl; exact hbr' hx
      rw [m4, if_neg x1, m3, m2, if_neg x2, m1]
    · intro x hx
      rw [← hbr] at hx
      simp at hx
      have x1 : x ≠ q := by rintro rfl; exact hqi hx
      have x2 : x ≠ hd' := by rintro rfl; exact hdi hx
      rw [o4, o3, if_neg x1, o2, o1, if_neg x2]
  · rw [← hvs]; apply List.map_congr_left; intro x _
    rw [u4, u3, u2, u1]
  · simp [i.len]
  · intro x hx
    simp [foot, hhd] at hx
    rcases hx with rfl | hx
    · omega
    · have := hb x (by simp [hx]); omega
  · intro x hx hn
    rw [foot_some _ hhd] at hn
    have x1 : x ≠ hd := by rintro rfl; exact hn (by simp)
    have x2 : x ≠ q := by rintro rfl; exact hn (by simp)
    have x3 : x ≠ b := by rintro rfl; exact hn (by simp at hbm ⊢; rcases hbm with hc | hc <;> simp [hc])
    simp [m4, m3, m2, m1, o4, o3, o2, o1, u4, u3, u2, u1, x1, x2, x3]
  · intro x hx
    simp [foot, hhd] at hx ⊢
    rcases hx with hx | hx <;> simp [hx]

theorem DInv.clear {h : List (DNode T)} {l : DL} {ids : List Nat} {s : List T} (i : DInv h l ids s) :
    ∃ h' l', (DL.clear (T := T)) ⟨h, l⟩ = .ok () ⟨h', l'⟩ ∧ DInv h' l' [] [] ∧ DFrame h h' (foot l ids) ∧
      (∀ q ∈ foot l' [], q ∈ foot l ids ∨ h.length ≤ q) ∧ (∀ q, l.head ≠ some q → nx h' q = nx h q ∧ vl h' q = vl h q) ∧ l'.head = l.head := by
  cases hh : l.head with
  | none =>
    refine ⟨h, { l with length := 0 }, ?_, ⟨by simp, by simp [foot, hh], by simp [hh], rfl, rfl, by simp [foot, hh]⟩, DFrame.refl _ _, ?_,
      fun _ _ => ⟨rfl, rfl⟩, hh⟩
    · simp [DL.clear, GoM.bind_def, hh]
    · simp [foot, hh]
  | some hd =>
    have hdl := i.bound hd (by simp [foot, hh])
    obtain ⟨h1, e1, m1, o1, u1, l1⟩ := DS.setPrev_view (h := h) (l := l) (p := hd) (some hd) hdl
    obtain ⟨h2, e2, m2, o2, u2, l2⟩ := DS.setNext_view (h := h1) (l := l) (p := hd) (some hd) (by omega)
    refine ⟨h2, { l with length := 0 }, ?_, ⟨by simp, by simp [foot, hh], ?_, rfl, rfl, ?_⟩, ⟨by omega, ?_⟩, ?_, ?_, hh⟩
    · simp [DL.clear, GoM.bind_def, hh, e1, e2]
    · intro hd' e
      have : hd' = hd := by simpa [hh] using e.symm
      subst this
      simp [Lk, m2, o2, o1]
    · intro q hq; simp [foot, hh] at hq; omega
    · intro q hq hn
      have : q ≠ hd := by rintro rfl; exact hn (by simp [foot, hh])
      simp [m2, m1, o2, o1, u2, u1, this]
    · intro q hq; simp [foot, hh] at hq ⊢; exact .inl (.inl hq)
    · intro q hq
      have : q ≠ hd := by rintro rfl; exact hq rfl
      simp [m2, m1, u2, u1, this]

/-! ## Reading -/

theorem DInv.front {h : List (DNode T)} {l : DL} {ids : List Nat} {v : T} {s : List T} (i : DInv h l ids (v :: s)) :
    (DL.front (T := T)) ⟨h, l⟩ = .ok v ⟨h, l⟩ := by
  obtain ⟨hd, hhd, hne⟩ := i.head_of_ne (by simp)
  cases ids with
  | nil => exact absurd rfl hne
  | cons q ids =>
    have L := i.lk hd hhd
    have hvq : vl h q = some v := by have := i.vals; simp at this; exact this.1
    obtain ⟨_, pvhd, _⟩ := view_of_lt (i.bound hd (by simp [foot, hhd]))
    obtain ⟨w1, _, ld1⟩ := DS.load_view (l := l) L.1.1 pvhd
    obtain ⟨nxq, pvq, _⟩ := view_of_lt (i.bound q (by simp [foot]))
    obtain ⟨w2, hw2, ld2⟩ := DS.load_view (l := l) nxq pvq
    rw [hvq] at hw2; injection hw2 with hw2; subst hw2
    have he := i.isEmpty
    simp only [List.isEmpty_cons] at he
    simp [DL.front, GoM.bind_def, he, hhd, ld1, ld2]

theorem DInv.back {h : List (DNode T)} {l : DL} {ids : List Nat} {v : T} {s : List T} (i : DInv h l ids (s ++ [v])) :
    (DL.back (T := T)) ⟨h, l⟩ = .ok v ⟨h, l⟩ := by
  obtain ⟨hd, hhd, hne⟩ := i.head_of_ne (by simp)
  obtain ⟨ids', q, rfl⟩ : ∃ ids' q, ids = ids' ++ [q] :=
    ⟨ids.dropLast, ids.getLast hne, (List.dropLast_concat_getLast hne).symm⟩
  have hvals := i.vals
  rw [List.map_append, List.map_append] at hvals
  have hvq : vl h q = some v := by have := (List.append_inj' hvals (by simp)).2; simpa using this
  have L := i.lk hd hhd
  rw [← List.cons_append, List.append_assoc, List.singleton_append, Lk.append] at L
  obtain ⟨nxhd, _, _⟩ := view_of_lt (i.bound hd (by simp [foot, hhd]))
  obtain ⟨w1, _, ld1⟩ := DS.load_view (l := l) nxhd L.2.1.2
  obtain ⟨nxq, pvq, _⟩ := view_of_lt (i.bound q (by simp [foot]))
  obtain ⟨w2, hw2, ld2⟩ := DS.load_view (l := l) nxq pvq
  rw [hvq] at hw2; injection hw2 with hw2; subst hw2
  have he := i.isEmpty
  have : (s ++ [v]).isEmpty = false := by cases s <;> rfl
  rw [this] at he
  simp [DL.back, GoM.bind_def, he, hhd, ld1, ld2]

theorem Lk.mid {h : List (DNode T)} {hd q : Nat} {A B : List Nat} (L : Lk h (hd :: (A ++ q :: B) ++ [hd])) :
    nx h q = some (B ++ [hd]).head? := by
  have e : hd :: (A ++ q :: B) ++ [hd] = (hd :: A) ++ q :: (B ++ [hd]) := by simp
  rw [e, Lk.append] at L
  cases hx : B ++ [hd] with
  | nil => simp at hx
  | cons f r => rw [hx] at L; exact L.2.1.1

theorem DInv.collect {h : List (DNode T)} {l : DL} {ids : List Nat} {s : List T} (i : DInv h l ids s) {hd : Nat} (hhd : l.head = some hd)
    (B : List Nat) : ∀ (A : List Nat) (sB : List T) (fuel : Nat), ids = A ++ B → B.map (vl h) = sB.map some → B.length < fuel →
    DIter.collect fuel { node := (B ++ [hd]).head? } ⟨h, l⟩ = .ok sB ⟨h, l⟩ := by
  induction B with
  | nil =>
    intro A sB fuel hids hv hf
    have : sB = [] := by simpa using hv.symm
    subst this
    cases fuel with
    | zero => simp at hf
    | succ n => simp [DIter.collect, DIter.isNotEnd, GoM.bind_def, hhd]
  | cons q B ih =>
    intro A sB fuel hids hv hf
    cases sB with
    | nil => simp at hv
    | cons v sB =>
      cases fuel with
      | zero => simp at hf
      | succ n =>
        simp only [List.map_cons, List.cons.injEq] at hv
        have hq : q ∈ foot l ids := by simp [foot, hids]
        have hqd : q ≠ hd := by
          rintro rfl
          have := i.nodup
          rw [foot_some _ hhd, hids] at this
          simp at this
        have hn := Lk.mid (A := A) (B := B) (by rw [← hids]; exact i.lk hd hhd)
        obtain ⟨_, pvq, _⟩ := view_of_lt (i.bound q hq)
        obtain ⟨w, hw, ld⟩ := DS.load_view (l := l) hn pvq
        rw [hv.1] at hw; injection hw with hw; subst hw
        have := ih (A ++ [q]) sB n (by simp [hids]) hv.2 (by simp at hf; omega)
        simp [-List.head?_append, DIter.collect, DIter.isNotEnd, DIter.value, DIter.moveToNext, GoM.bind_def, hhd, hqd, ld, this]

theorem DInv.iterate {h : List (DNode T)} {l : DL} {ids : List Nat} {s : List T} (i : DInv h l ids s) :
    (∃ hd, l.head = some hd ∧ (DL.iterate (T := T)) ⟨h, l⟩ = .ok { node := (ids ++ [hd]).head? } ⟨h, l⟩) ∨
    (l.head = none ∧ s = [] ∧ (DL.iterate (T := T)) ⟨h, l⟩ = .ok { node := none } ⟨h, l⟩) := by
  cases hh : l.head with
  | none =>
    have := i.empty hh; subst this
    have hs : s = [] := by have := i.vals; simpa using this.symm
    exact .inr ⟨rfl, hs, by simp [DL.iterate, GoM.bind_def, hh]⟩
  | some hd =>
    refine .inl ⟨hd, rfl, ?_⟩
    have L := i.lk hd hh
    have hn : nx h hd = some (ids ++ [hd]).head? := by
      cases hx : ids ++ [hd] with
      | nil => simp at hx
      | cons f r => rw [List.cons_append, hx] at L; exact L.1.1
    obtain ⟨_, pvhd, _⟩ := view_of_lt (i.bound hd (by simp [foot, hh]))
    obtain ⟨w, _, ld⟩ := DS.load_view (l := l) hn pvhd
    simp [-List.head?_append, DL.iterate, GoM.bind_def, hh, ld]

theorem length_le_of_nodup {l : List Nat} : ∀ {n : Nat}, l.Nodup → (∀ q ∈ l, q < n) → l.length ≤ n := by
  intro n hn hb
  have := hn.length_le_of_subset (l₂ := List.range n) (fun q hq => by simp [hb q hq])
  simpa using this

theorem DInv.fuel {h : List (DNode T)} {l : DL} {ids : List Nat} {s : List T} (i : DInv h l ids s) : ids.length ≤ h.length := by
  have := length_le_of_nodup i.nodup i.bound
  simp [foot] at this; omega

theorem DInv.values {h : List (DNode T)} {l : DL} {ids : List Nat} {s : List T} (i : DInv h l ids s) :
    (do let it ← DL.iterate; it.collect (h.length + 1) : GoM (DS T) (List T)) ⟨h, l⟩ = .ok s ⟨h, l⟩ := by
  rcases i.iterate with ⟨hd, hhd, e⟩ | ⟨hhd, rfl, e⟩
  · rw [GoM.bind_def, e]
    exact i.collect hhd ids [] s _ rfl i.vals (by have := i.fuel; omega)
  · rw [GoM.bind_def, e]
    simp [DIter.collect, DIter.isNotEnd, GoM.bind_def, hhd]

/-! ## One operation -/

theorem DInv.zero (h : List (DNode T)) : DInv h {} [] [] := ⟨by simp, by simp [foot], by simp, rfl, rfl, by simp [foot]⟩

theorem DInv.pushAll [GoZero T] (vs : List T) : ∀ {h : List (DNode T)} {l : DL} {ids : List Nat} {s : List T}, DInv h l ids s →
    ∃ h' l' ids', (DL.pushAll vs) ⟨h, l⟩ = .ok () ⟨h', l'⟩ ∧ DInv h' l' ids' (s ++ vs) ∧ DFrame h h' (foot l ids) ∧
      ∀ q ∈ foot l' ids', q ∈ foot l ids ∨ h.length ≤ q := by
  induction vs with
  | nil => intro h l ids s i; exact ⟨h, l, ids, rfl, by simpa using i, DFrame.refl _ _, fun q hq => .inl hq⟩
  | cons v vs ih =>
    intro h l ids s i
    obtain ⟨h1, l1, i1, a1, a2, a3, a4, _⟩ := i.pushBack v
    obtain ⟨h2, l2, i2, b1, b2, b3, b4⟩ := ih a2
    refine ⟨h2, l2, i2, ?_, by simpa using b2, a3.trans b3 a4, ?_⟩
    · simp [DL.pushAll, GoM.bind_def, a1, b1]
    · intro q hq
      rcases b4 q hq with h | h
      · exact a4 q h
      · have := a3.mono; omega

theorem exists_concat {s : List T} (h : s ≠ []) : ∃ r v, s = r ++ [v] := ⟨s.dropLast, s.getLast h, (List.dropLast_concat_getLast h).symm⟩

/-- What an operation does to the nodes of the list: which nodes are its elements afterwards, and what becomes of those it drops. -/
def DMove (h h' : List (DNode T)) (l l' : DL) (ids ids' : List Nat) : DOp T → Prop
  | .make vs => vs = [] → l'.head = none
  | .pushFront _ => (∃ p, ids' = p :: ids) ∧ ∃ hd, l'.head = some hd ∧ ∀ x, l.head = some x → x = hd
  | .pushBack _ => (∃ p, ids' = ids ++ [p]) ∧ ∃ hd, l'.head = some hd ∧ ∀ x, l.head = some x → x = hd
  | .popFront | .tryPopFront => ids' = ids.tail ∧ (∀ q, ids.head? = some q → nx h' q = some none ∧ vl h' q = vl h q) ∧ l'.head = l.head
  | .popBack | .tryPopBack =>
    ids' = ids.dropLast ∧ (∀ q, ids.getLast? = some q → nx h' q = some none ∧ vl h' q = vl h q) ∧ l'.head = l.head
  | .clear => ids' = [] ∧ (∀ q, l.head ≠ some q → nx h' q = nx h q ∧ vl h' q = vl h q) ∧ l'.head = l.head
  | _ => ids' = ids ∧ h' = h ∧ l' = l

theorem DInv.ids_nil {h : List (DNode T)} {l : DL} {ids : List Nat} (i : DInv h l ids []) : ids = [] :=
  List.length_eq_zero_iff.1 i.length_ids

theorem DInv.cons_val {h : List (DNode T)} {l : DL} {q : Nat} {ids : List Nat} {v : T} {s : List T} (i : DInv h l (q :: ids) (v :: s)) :
    vl h q = some v := by have := i.vals; simp at this; exact this.1

theorem DInv.concat_val {h : List (DNode T)} {l : DL} {q : Nat} {ids : List Nat} {v : T} {s : List T} (i : DInv h l (ids ++ [q]) (s ++ [v])) :
    vl h q = some v := by
  have hv := i.vals
  rw [List.map_append, List.map_append] at hv
  have := (List.append_inj' hv (by simp)).2
  simpa using this

theorem DInv.exec_moves [GoZero T] {h : List (DNode T)} {l : DL} {ids : List Nat} {s : List T} (i : DInv h l ids s) (op : DOp T) :
    ∃ h' l' ids', DL.exec ⟨h, l⟩ op = ((Deque.step s op).1, ⟨h', l'⟩) ∧ DInv h' l' ids' (Deque.step s op).2 ∧ DFrame h h' (foot l ids) ∧
      (∀ q ∈ foot l' ids', q ∈ foot l ids ∨ h.length ≤ q) ∧ DMove h h' l l' ids ids' op := by
  cases op with
  | make vs =>
    obtain ⟨h', l', ids', a1, a2, a3, a4⟩ := (DInv.zero h).pushAll vs
    refine ⟨h', l', ids', ?_, by simpa [Deque.step] using a2, ⟨a3.mono, fun q hq _ => a3.same q hq (by simp [foot])⟩, ?_, ?_⟩
    · simp [DL.exec, DS.observe, DL.dlistOf, GoM.bind_def, a1, Deque.step]
    · intro q hq
      rcases a4 q hq with hc | hc
      · simp [foot] at hc
      · exact .inr hc
    · rintro rfl
      injection a1 with _ a1; injection a1 with _ a1; rw [← a1]
  | pushFront v =>
    obtain ⟨h', l', ids', a1, a2, a3, a4, a5⟩ := i.pushFront v
    exact ⟨h', l', ids', by simp [DL.exec, DS.observe, a1, Deque.step], a2, a3, a4, a5⟩
  | pushBack v =>
    obtain ⟨h', l', ids', a1, a2, a3, a4, a5⟩ := i.pushBack v
    exact ⟨h', l', ids', by simp [DL.exec, DS.observe, a1, Deque.step], a2, a3, a4, a5⟩
  | popFront =>
    cases s with
    | nil =>
      have he := i.isEmpty
      refine ⟨h, l, ids, ?_, i, DFrame.refl _ _, fun q hq => .inl hq, ?_⟩
      · simp [DL.exec, DS.observe, DL.popFront, DL.tryPopFront, GoM.bind_def, he, Deque.step]
      · have := i.ids_nil; subst this; simp [DMove]
    | cons v s =>
      obtain ⟨h', l', ids', a1, a2, a3, a4, ⟨q, rfl, a5, a6⟩, a7⟩ := i.tryPopFront_cons
      have hv : vl h q = some v := (DInv.cons_val i)
      exact ⟨h', l', ids', by simp [DL.exec, DS.observe, DL.popFront, GoM.bind_def, a1, Deque.step], a2, a3, a4,
        ⟨rfl, fun x hx => by injection hx with hx; subst hx; exact ⟨a5, by rw [a6, hv]⟩, a7⟩⟩
  | tryPopFront =>
    cases s with
    | nil =>
      have he := i.isEmpty
      refine ⟨h, l, ids, ?_, i, DFrame.refl _ _, fun q hq => .inl hq, ?_⟩
      · simp [DL.exec, DS.observe, DL.tryPopFront, GoM.bind_def, he, Deque.step]
      · have := i.ids_nil; subst this; simp [DMove]
    | cons v s =>
      obtain ⟨h', l', ids', a1, a2, a3, a4, ⟨q, rfl, a5, a6⟩, a7⟩ := i.tryPopFront_cons
      have hv : vl h q = some v := (DInv.cons_val i)
      exact ⟨h', l', ids', by simp [DL.exec, DS.observe, a1, Deque.step], a2, a3, a4,
        ⟨rfl, fun x hx => by injection hx with hx; subst hx; exact ⟨a5, by rw [a6, hv]⟩, a7⟩⟩
  | popBack =>
    by_cases hs : s = []
    · subst hs
      have he := i.isEmpty
      refine ⟨h, l, ids, ?_, i, DFrame.refl _ _, fun q hq => .inl hq, ?_⟩
      · simp [DL.exec, DS.observe, DL.popBack, DL.tryPopBack, GoM.bind_def, he, Deque.step]
      · have := i.ids_nil; subst this; simp [DMove]
    · obtain ⟨r, v, rfl⟩ := exists_concat hs
      obtain ⟨h', l', ids', a1, a2, a3, a4, ⟨q, rfl, a5, a6⟩, a7⟩ := i.tryPopBack_concat
      have hv : vl h q = some v := (DInv.concat_val i)
      exact ⟨h', l', ids', by simp [DL.exec, DS.observe, DL.popBack, GoM.bind_def, a1, Deque.step], by simpa [Deque.step] using a2, a3, a4,
        ⟨by simp, fun x hx => by rw [List.getLast?_concat] at hx; injection hx with hx; subst hx; exact ⟨a5, by rw [a6, hv]⟩, a7⟩⟩
  | tryPopBack =>
    by_cases hs : s = []
    · subst hs
      have he := i.isEmpty
      refine ⟨h, l, ids, ?_, i, DFrame.refl _ _, fun q hq => .inl hq, ?_⟩
      · simp [DL.exec, DS.observe, DL.tryPopBack, GoM.bind_def, he, Deque.step]
      · have := i.ids_nil; subst this; simp [DMove]
    · obtain ⟨r, v, rfl⟩ := exists_concat hs
      obtain ⟨h', l', ids', a1, a2, a3, a4, ⟨q, rfl, a5, a6⟩, a7⟩ := i.tryPopBack_concat
      have hv : vl h q = some v := (DInv.concat_val i)
      exact ⟨h', l', ids', by simp [DL.exec, DS.observe, a1, Deque.step], by simpa [Deque.step] using a2, a3, a4,
        ⟨by simp, fun x hx => by rw [List.getLast?_concat] at hx; injection hx with hx; subst hx; exact ⟨a5, by rw [a6, hv]⟩, a7⟩⟩
  | front =>
    cases s with
    | nil =>
      have he := i.isEmpty
      refine ⟨h, l, ids, ?_, i, DFrame.refl _ _, fun q hq => .inl hq, rfl, rfl, rfl⟩
      simp [DL.exec, DS.observe, DL.front, GoM.bind_def, he, Deque.step]
    | cons v s =>
      refine ⟨h, l, ids, ?_, i, DFrame.refl _ _, fun q hq => .inl hq, rfl, rfl, rfl⟩
      simp [DL.exec, DS.observe, i.front, Deque.step]
  | back =>
    by_cases hs : s = []
    · subst hs
      have he := i.isEmpty
      refine ⟨h, l, ids, ?_, i, DFrame.refl _ _, fun q hq => .inl hq, rfl, rfl, rfl⟩
      simp [DL.exec, DS.observe, DL.back, GoM.bind_def, he, Deque.step]
    · obtain ⟨r, v, rfl⟩ := exists_concat hs
      refine ⟨h, l, ids, ?_, by simpa [Deque.step] using i, DFrame.refl _ _, fun q hq => .inl hq, rfl, rfl, rfl⟩
      simp [DL.exec, DS.observe, i.back, Deque.step]
  | len =>
    refine ⟨h, l, ids, ?_, i, DFrame.refl _ _, fun q hq => .inl hq, rfl, rfl, rfl⟩
    simp [DL.exec, DS.observe, DL.len, GoM.bind_def, i.len, Deque.step]
  | isEmpty =>
    refine ⟨h, l, ids, ?_, i, DFrame.refl _ _, fun q hq => .inl hq, rfl, rfl, rfl⟩
    simp [DL.exec, DS.observe, i.isEmpty, Deque.step]
  | clear =>
    obtain ⟨h', l', a1, a2, a3, a4, a5, a6⟩ := i.clear
    exact ⟨h', l', [], by simp [DL.exec, DS.observe, a1, Deque.step], a2, a3, a4, rfl, a5, a6⟩
  | values =>
    refine ⟨h, l, ids, ?_, i, DFrame.refl _ _, fun q hq => .inl hq, rfl, rfl, rfl⟩
    have := i.values
    simp only [DL.exec, DS.observe, this, Deque.step]

theorem DInv.exec [GoZero T] {h : List (DNode T)} {l : DL} {ids : List Nat} {s : List T} (i : DInv h l ids s) (op : DOp T) :
    ∃ h' l' ids', DL.exec ⟨h, l⟩ op = ((Deque.step s op).1, ⟨h', l'⟩) ∧ DInv h' l' ids' (Deque.step s op).2 ∧ DFrame h h' (foot l ids) ∧
      ∀ q ∈ foot l' ids', q ∈ foot l ids ∨ h.length ≤ q := by
  obtain ⟨h', l', ids', a1, a2, a3, a4, _⟩ := i.exec_moves op
  exact ⟨h', l', ids', a1, a2, a3, a4⟩

/-! ## Several lists -/

/-- Every variable holds its own sequence and no two share a node. -/
structure WInv (w : DWorld T) (s : Nat → List T) (ids : Nat → List Nat) : Prop where
  inv : ∀ i, DInv w.heap (w.vars i) (ids i) (s i)
  disj : ∀ i j, i ≠ j → ∀ q ∈ foot (w.vars i) (ids i), q ∉ foot (w.vars j) (ids j)

theorem WInv.init : WInv (DWorld.init : DWorld T) (fun _ => []) (fun _ => []) :=
  ⟨fun _ => DInv.zero _, fun i j _ q hq => by simp [foot, DWorld.init] at hq⟩

theorem WInv.run [GoZero T] (ops : List (Nat × DOp T)) : ∀ {w : DWorld T} {s : Nat → List T} {ids : Nat → List Nat}, WInv w s ids →
    ∃ ids', (w.run ops).1 = (Deque.run s ops).1 ∧ WInv (w.run ops).2 (Deque.run s ops).2 ids' := by
  induction ops with
  | nil => intro w s ids h; exact ⟨ids, rfl, h⟩
  | cons o ops ih =>
    intro w s ids h
    obtain ⟨i, op⟩ := o
    obtain ⟨h', l', i', a1, a2, a3, a4⟩ := (h.inv i).exec op
    have hw : WInv { heap := h', vars := fun j => if j = i then l' else w.vars j } (fun j => if j = i then (Deque.step (s i) op).2 else s j)
        (fun j => if j = i then i' else ids j) := by
      refine ⟨fun j => ?_, fun j k hjk q hq => ?_⟩
      · by_cases hj : j = i
        · subst hj; simpa using a2
        · simp only [hj, if_false]
          exact (h.inv j).frame a3 (fun q hq hc => h.disj j i hj q hq hc)
      · simp only at hq ⊢
        by_cases hj : j = i
        · subst hj
          have hk : k ≠ j := fun e => hjk e.symm
          simp only [if_true] at hq
          simp only [hk, if_false]
          intro hc
          rcases a4 q hq with h1 | h1
          · exact h.disj j k hjk q h1 hc
          · have := (h.inv k).bound q hc; omega
        · simp only [hj, if_false] at hq
          by_cases hk : k = i
          · subst hk
            simp only [if_true]
            intro hc
            rcases a4 q hc with h1 | h1
            · exact h.disj j k hj q hq h1
            · have := (h.inv j).bound q hq; omega
          · simp only [hk, if_false]
            exact h.disj j k hjk q hq
    obtain ⟨ids', b1, b2⟩ := ih hw
    refine ⟨ids', ?_, ?_⟩
    · simp only [DWorld.run, Deque.run, a1]
      rw [b1]
    · simp only [DWorld.run, Deque.run, a1]
      exact b2

end Stl4go
