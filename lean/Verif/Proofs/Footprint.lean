import Verif.Model.DListQueue
import Verif.Model.SList
import Verif.Spec.Footprint
/-! # Lemmas about `Touches` -/
namespace Stl4go
variable {σ N R α β T : Type} {h : σ → List N} {r : σ → R} {L : List Nat} {n k k' : Nat}

/-- An address that may be accessed. -/
def Open (L : List Nat) (n : Nat) (p : Option Nat) : Prop := ∀ q, p = some q → q ∈ L ∨ n ≤ q

theorem Spared.rfl' (s : σ) : Spared h L n s s := fun _ _ _ => rfl

theorem Spared.trans {s t u : σ} (h1 : Spared h L n s t) (h2 : Spared h L n t u) : Spared h L n s u := fun p a b => (h2 p a b).trans (h1 p a b)

theorem together_bind {x x' : GoM σ α} {f f' : α → GoM σ β} {s s' : σ} (hx : Together h r L n k s s' (x s) (x' s'))
    (hf : ∀ a t t', x s = .ok a t → x' s' = .ok a t' → Alike h r L n t t' → Together h r L n k' t t' (f a t) (f' a t')) :
    Together h r L n (k + k') s s' ((x >>= f) s) ((x' >>= f') s') := by
  rw [GoM.bind_def, GoM.bind_def]
  cases e : x s with
  | diverge => rw [e] at hx; cases e' : x' s' with
    | diverge => trivial
    | ok a t => rw [e'] at hx; exact hx.elim
    | panic t => rw [e'] at hx; exact hx.elim
  | panic t => rw [e] at hx; cases e' : x' s' with
    | diverge => rw [e'] at hx; exact hx.elim
    | ok a t => rw [e'] at hx; exact hx.elim
    | panic t' =>
      rw [e'] at hx
      exact ⟨hx.1, hx.2.1, hx.2.2.1, by have := hx.2.2.2; omega⟩
  | ok a t => rw [e] at hx; cases e' : x' s' with
    | diverge => rw [e'] at hx; exact hx.elim
    | panic t => rw [e'] at hx; exact hx.elim
    | ok a' t' =>
      rw [e'] at hx
      obtain ⟨rfl, ha, u1, u2, hl⟩ := hx
      have := hf _ _ _ e e' ha
      simp only []
      cases e2 : f a' t with
      | diverge => rw [e2] at this; cases e3 : f' a' t' with
        | diverge => trivial
        | ok a t => rw [e3] at this; exact this.elim
        | panic t => rw [e3] at this; exact this.elim
      | panic v => rw [e2] at this; cases e3 : f' a' t' with
        | diverge => rw [e3] at this; exact this.elim
        | ok a t => rw [e3] at this; exact this.elim
        | panic v' =>
          rw [e3] at this
          exact ⟨this.1, u1.trans this.2.1, u2.trans this.2.2.1, by have := this.2.2.2; omega⟩
      | ok b v => rw [e2] at this; cases e3 : f' a' t' with
        | diverge => rw [e3] at this; exact this.elim
        | panic t => rw [e3] at this; exact this.elim
        | ok b' v' =>
          rw [e3] at this
          exact ⟨this.1, this.2.1, u1.trans this.2.2.1, u2.trans this.2.2.2.1, by have := this.2.2.2.2; omega⟩

theorem together_pure {s s' : σ} (hs : Alike h r L n s s') (a : α) : Together h r L n k s s' ((pure a : GoM σ α) s) ((pure a : GoM σ α) s') :=
  ⟨rfl, hs, Spared.rfl' _, Spared.rfl' _, by omega⟩

theorem together_panic {s s' : σ} (hs : Alike h r L n s s') : Together h r L n k s s' ((GoM.panic : GoM σ α) s) ((GoM.panic : GoM σ α) s') :=
  ⟨hs, Spared.rfl' _, Spared.rfl' _, by omega⟩

/-- After reading the whole state the two executions differ in what they know. -/
theorem together_get {f f' : σ → GoM σ β} {s s' : σ} (hf : Together h r L n k s s' (f s s) (f' s' s')) :
    Together h r L n k s s' ((GoM.get >>= f) s) ((GoM.get >>= f') s') := hf

/-- A change of the receiver alone. -/
theorem together_modify {g : σ → σ} {s s' : σ} (hs : Alike h r L n s s') (gh : ∀ s, h (g s) = h s) (gr : r (g s') = r (g s)) :
    Together h r L n k s s' (GoM.modify g s) (GoM.modify g s') := by
  refine ⟨rfl, ⟨gr, ?_, ?_⟩, ?_, ?_, ?_⟩
  · rw [gh, gh]; exact hs.2.1
  · intro p hp; rw [gh, gh]; exact hs.2.2 p hp
  · intro p _ _; rw [gh]
  · intro p _ _; rw [gh]
  · rw [gh]; omega

theorem together_mono {s s' : σ} {x x' : Res σ α} (hk : k ≤ k') (hx : Together h r L n k s s' x x') : Together h r L n k' s s' x x' := by
  cases x with
  | diverge => cases x' <;> exact hx
  | panic t => cases x' with
    | panic t' => exact ⟨hx.1, hx.2.1, hx.2.2.1, by have := hx.2.2.2; omega⟩
    | ok => exact hx
    | diverge => exact hx
  | ok a t => cases x' with
    | ok a' t' => exact ⟨hx.1, hx.2.1, hx.2.2.1, hx.2.2.2.1, by have := hx.2.2.2.2; omega⟩
    | panic => exact hx
    | diverge => exact hx

/-- Writing to an accessible node of both heaps. -/
theorem alike_set {H H' : List N} {q : Nat} {m : N} (hl : H'.length = H.length) (hs : ∀ p, p ∈ L ∨ n ≤ p → H'[p]? = H[p]?) :
    (H'.set q m).length = (H.set q m).length ∧ ∀ p, p ∈ L ∨ n ≤ p → (H'.set q m)[p]? = (H.set q m)[p]? := by
  refine ⟨by simp [hl], fun p hp => ?_⟩
  rw [List.getElem?_set, List.getElem?_set, hl, hs p hp]

theorem spared_set {H : List N} {q : Nat} {m : N} (hq : q ∈ L ∨ n ≤ q) : ∀ p, p ∉ L → p < n → (H.set q m)[p]? = H[p]? := by
  intro p h1 h2
  have : q ≠ p := by
    rintro rfl
    rcases hq with hq | hq
    · exact h1 hq
    · omega
  rw [List.getElem?_set, if_neg this]

/-! ## Doubly linked lists -/

section DL
variable {s s' : DS T}

abbrev DAlike (L : List Nat) (n : Nat) (s s' : DS T) : Prop := Alike DS.heap DS.l L n s s'
abbrev DTogether (L : List Nat) (n k : Nat) (s s' : DS T) : Res (DS T) α → Res (DS T) α → Prop := Together DS.heap DS.l L n k s s'

theorem together_load {p : Option Nat} (hs : DAlike L n s s') (hp : Open L n p) : DTogether L n k s s' (DS.load p s) (DS.load p s') := by
  cases p with
  | none => exact ⟨hs, Spared.rfl' _, Spared.rfl' _, by omega⟩
  | some q =>
    unfold DS.load
    simp only [hs.2.2 q (hp q rfl)]
    cases s.heap[q]? with
    | none => exact ⟨hs, Spared.rfl' _, Spared.rfl' _, by omega⟩
    | some m => exact ⟨rfl, hs, Spared.rfl' _, Spared.rfl' _, by omega⟩

/-- The assignments to a field of a node. -/
def DS.write (f : DNode T → DNode T) (p : Option Nat) : GoM (DS T) Unit := fun s =>
  match p with
  | none => .panic s
  | some p =>
    match s.heap[p]? with
    | some n => .ok () { s with heap := s.heap.set p (f n) }
    | none => .panic s

theorem together_write {p : Option Nat} (f : DNode T → DNode T) (hs : DAlike L n s s') (hp : Open L n p) : DTogether L n k s s' (DS.write f p s) (DS.write f p s') := by
  cases p with
  | none => exact ⟨hs, Spared.rfl' _, Spared.rfl' _, by omega⟩
  | some q =>
    unfold DS.write
    simp only [hs.2.2 q (hp q rfl)]
    cases e : s.heap[q]? with
    | none => exact ⟨hs, Spared.rfl' _, Spared.rfl' _, by omega⟩
    | some m =>
      refine ⟨rfl, ⟨hs.1, alike_set hs.2.1 hs.2.2⟩, spared_set (hp q rfl), spared_set (hp q rfl), by simp⟩

theorem together_setNext {p v : Option Nat} (hs : DAlike L n s s') (hp : Open L n p) : DTogether L n k s s' (DS.setNext p v s) (DS.setNext p v s') :=
  together_write (fun m => { m with next := v }) hs hp

theorem together_setPrev {p v : Option Nat} (hs : DAlike L n s s') (hp : Open L n p) : DTogether L n k s s' (DS.setPrev p v s) (DS.setPrev p v s') :=
  together_write (fun m => { m with prev := v }) hs hp

theorem together_setVal {p : Option Nat} {v : T} (hs : DAlike L n s s') (hp : Open L n p) : DTogether L n k s s' (DS.setVal p v s) (DS.setVal p v s') :=
  together_write (fun m => { m with value := v }) hs hp

theorem together_alloc (m : DNode T) (hs : DAlike L n s s') (hn : n ≤ s.heap.length) : DTogether L n 1 s s' (DS.alloc m s) (DS.alloc m s') := by
  have hl := hs.2.1
  refine ⟨by rw [hl], ⟨hs.1, by simp [hl], fun p hp => ?_⟩, fun p _ h2 => ?_, fun p _ h2 => ?_, by simp⟩
  · have := hs.2.2 p hp
    simp only [List.getElem?_append, hl]
    split
    · exact this
    · rfl
  · exact List.getElem?_append_left (by omega)
  · exact List.getElem?_append_left (by omega)

theorem load_ok {p : Option Nat} {m : DNode T} {t : DS T} (e : DS.load p s = .ok m t) : t = s ∧ ∃ q, p = some q ∧ s.heap[q]? = some m := by
  cases p with
  | none => exact nomatch e
  | some q =>
    unfold DS.load at e
    cases h : s.heap[q]? with
    | none => simp only [h] at e; exact nomatch e
    | some m' => simp only [h] at e; injection e with e1 e2; subst e1; exact ⟨e2.symm, q, rfl, h⟩

theorem write_ok {f : DNode T → DNode T} {p : Option Nat} {t : DS T} {u : Unit} (e : DS.write f p s = .ok u t) :
    ∃ q m, p = some q ∧ s.heap[q]? = some m ∧ t = { s with heap := s.heap.set q (f m) } := by
  cases p with
  | none => exact nomatch e
  | some q =>
    unfold DS.write at e
    cases h : s.heap[q]? with
    | none => simp only [h] at e; exact nomatch e
    | some m' => simp only [h] at e; injection e with e1 e2; exact ⟨q, m', rfl, h, e2.symm⟩

/-- The node that a pointer field of a node refers to. -/
def follow (s : DS T) (f : DNode T → Option Nat) (p : Option Nat) : Option Nat := p.bind fun q => (s.heap[q]?).bind f

theorem follow_of_load {f : DNode T → Option Nat} {p : Option Nat} {m : DNode T} {t : DS T} (e : DS.load p s = .ok m t) : follow s f p = f m := by
  obtain ⟨_, q, rfl, h⟩ := load_ok e
  simp [follow, h]

theorem open_mem {p : Option Nat} (hp : ∀ q, p = some q → q ∈ L) : Open L n p := fun q e => .inl (hp q e)

theorem open_toList {p : Option Nat} (A B : List Nat) : Open (A ++ p.toList ++ B) n p := fun q e => by subst e; simp

theorem isEmpty_bind {f : Bool → GoM (DS T) α} : (DL.isEmpty >>= f) s = f (s.l.length == 0) s := rfl

/-- The head of a list and the node before or after it. -/
def DS.pair (s : DS T) (f : DNode T → Option Nat) : List Nat := s.l.head.toList ++ (follow s f s.l.head).toList

theorem touches_end (f : DNode T → Option Nat) : Touches DS.heap DS.l (s.pair f) 0
    (do if ← DL.isEmpty then GoM.panic
        else
          let s ← GoM.get
          let h ← DS.load s.l.head
          let n ← DS.load (f h)
          return n.value) s := by
  intro s' hs
  rw [isEmpty_bind, isEmpty_bind, hs.1]
  cases s.l.length == 0 with
  | true => exact together_panic hs
  | false =>
    refine together_get ?_
    rw [hs.1]
    refine together_bind (k := 0) (k' := 0) (together_load hs (open_mem fun q e => by simp [DS.pair, e])) fun m u u' e e' hu => ?_
    obtain ⟨rfl, _⟩ := load_ok e
    refine together_bind (k := 0) (k' := 0) (together_load hu (open_mem fun q e2 => by simp [DS.pair, follow_of_load e, e2])) fun m u u' e e' hu => ?_
    exact together_pure hu _

theorem touches_front : Touches DS.heap DS.l (s.pair DNode.next) 0 DL.front s := touches_end DNode.next

theorem touches_back : Touches DS.heap DS.l (s.pair DNode.prev) 0 DL.back s := touches_end DNode.prev

theorem touches_clear : Touches DS.heap DS.l s.l.head.toList 0 DL.clear s := by
  intro s' hs
  unfold DL.clear
  refine together_get ?_
  rw [hs.1]
  by_cases c : s.l.head ≠ none
  · rw [if_pos c]
    refine together_bind (k := 0) (k' := 0) (together_setPrev hs (open_mem fun q e => by simp [e])) fun _ t t' _ _ ht => ?_
    refine together_bind (k := 0) (k' := 0) (together_setNext ht (open_mem fun q e => by simp [e])) fun _ t t' _ _ ht => ?_
    exact together_modify ht (fun _ => rfl) (by simp only [ht.1])
  · rw [if_neg c]
    exact together_modify hs (fun _ => rfl) (by simp only [hs.1])

/-- `PushFront` and `PushBack` after `ensureHead`, with the head `c`. -/
theorem together_push {f : DNode T → Option Nat} {val : DNode T → DNode T} {g : Option Nat → DNode T → DNode T} {g' : Option Nat → DNode T → DNode T}
    {c : Option Nat} (hs : DAlike L n s s') (hn : n ≤ s.heap.length) (hc : Open L n c) (hf : Open L n (follow s f c)) (hs0 : s.l.head = c) :
    DTogether L n 1 s s'
      ((do
        let h ← DS.load c
        let p ← DS.alloc (val h)
        let h ← DS.load c
        DS.write (g p) (f h)
        DS.write (g' p) c
        GoM.modify (fun s => { s with l := { s.l with length := s.l.length + 1 } }) : GoM (DS T) Unit) s)
      ((do
        let h ← DS.load c
        let p ← DS.alloc (val h)
        let h ← DS.load c
        DS.write (g p) (f h)
        DS.write (g' p) c
        GoM.modify (fun s => { s with l := { s.l with length := s.l.length + 1 } }) : GoM (DS T) Unit) s') := by
  refine together_bind (k := 0) (k' := 1) (together_load hs hc) fun h t t' e _ ht => ?_
  have hh := follow_of_load (f := f) e
  obtain ⟨rfl, q, rfl, hq⟩ := load_ok e
  refine together_bind (k := 1) (k' := 0) (together_alloc _ ht hn) fun p u u' eu _ hu => ?_
  refine together_bind (k := 0) (k' := 0) (together_load hu hc) fun h2 v v' ev _ hv => ?_
  have h2h : h2 = h := by
    obtain ⟨_, q', e1, e2⟩ := load_ok ev
    injection e1 with e1
    subst e1
    unfold DS.alloc at eu
    injection eu with _ eu
    rw [← eu] at e2
    have : q < t.heap.length := by
      rcases Nat.lt_or_ge q t.heap.length with h | h
      · exact h
      · rw [List.getElem?_eq_none h] at hq; exact nomatch hq
    simp only [] at e2
    rw [List.getElem?_append_left this, hq] at e2
    injection e2 with e2
    exact e2.symm
  subst h2h
  refine together_bind (k := 0) (k' := 0) (together_write _ hv (hh ▸ hf)) fun _ w w' _ _ hw => ?_
  refine together_bind (k := 0) (k' := 0) (together_write _ hw hc) fun _ x x' _ _ hx => ?_
  exact together_modify hx (fun _ => rfl) (by simp only [hx.1])

theorem ensureHead_none [GoZero T] (c : s.l.head = none) : (DL.ensureHead : GoM (DS T) Unit) s = .ok ()
    ⟨s.heap ++ [{ prev := some s.heap.length, next := some s.heap.length, value := GoZero.zero }], { s.l with head := some s.heap.length }⟩ := by
  unfold DL.ensureHead
  rw [GoM.bind_def]
  simp only [GoM.get_apply, if_pos c]
  rw [GoM.bind_def]
  simp only [DS.alloc]
  rw [GoM.bind_def]
  simp only [GoM.modify_apply]
  rw [GoM.bind_def]
  simp [DS.setPrev, DS.setNext]

theorem ensureHead_some [GoZero T] (c : s.l.head ≠ none) : (DL.ensureHead : GoM (DS T) Unit) s = .ok () s := by
  unfold DL.ensureHead
  rw [GoM.bind_def]
  simp only [GoM.get_apply, if_neg c, GoM.pure_apply]

theorem touches_push [GoZero T] {x : GoM (DS T) Unit} {f : DNode T → Option Nat} {val : Option Nat → DNode T → DNode T} {g : Option Nat → DNode T → DNode T} {g' : Option Nat → DNode T → DNode T}
    (hz : ∀ c v, f { prev := c, next := c, value := v } = c)
    (hx : x = (do
        DL.ensureHead
        let s ← GoM.get
        let h ← DS.load s.l.head
        let p ← DS.alloc (val s.l.head h)
        let h ← DS.load s.l.head
        DS.write (g p) (f h)
        DS.write (g' p) s.l.head
        GoM.modify (fun s => { s with l := { s.l with length := s.l.length + 1 } }))) :
    Touches DS.heap DS.l (s.pair f) 2 x s := by
  intro s' hs
  subst hx
  by_cases c : s.l.head = none
  · have c' : s'.l.head = none := by rw [hs.1]; exact c
    have hl := hs.2.1
    refine together_bind (k := 1) (k' := 1) ?_ fun _ t t' e _ ht => ?_
    · rw [ensureHead_none c, ensureHead_none c']
      refine ⟨rfl, ⟨by simp only [hs.1, hl], by simp [hl], fun p hp => ?_⟩, fun p _ h2 => ?_, fun p _ h2 => ?_, by simp⟩
      · simp only [List.getElem?_append, hl]
        split
        · exact hs.2.2 p hp
        · rfl
      · exact List.getElem?_append_left h2
      · exact List.getElem?_append_left (by omega)
    · rw [ensureHead_none c] at e
      injection e with _ e
      refine together_get ?_
      rw [ht.1]
      refine together_push ht ?_ ?_ ?_ rfl
      · rw [← e]; simp
      · rw [← e]; intro q hq; injection hq with hq; omega
      · intro q hq
        rw [← e] at hq
        simp [follow, hz] at hq
        omega
  · have c' : s'.l.head ≠ none := by rw [hs.1]; exact c
    refine together_mono (by omega : 1 ≤ 2) ?_
    rw [GoM.bind_def, GoM.bind_def, ensureHead_some c, ensureHead_some c']
    refine together_get ?_
    rw [hs.1]
    exact together_push hs (by omega) (open_mem fun q e => by simp [DS.pair, e]) (open_mem fun q e => by simp [DS.pair, e]) rfl

theorem touches_pushFront [GoZero T] (v : T) : Touches DS.heap DS.l (s.pair DNode.next) 2 (DL.pushFront v) s :=
  touches_push (val := fun c h => { prev := c, next := h.next, value := v }) (g := fun p m => { m with prev := p }) (g' := fun p m => { m with next := p }) (fun _ _ => rfl) rfl

theorem touches_pushBack [GoZero T] (v : T) : Touches DS.heap DS.l (s.pair DNode.prev) 2 (DL.pushBack v) s :=
  touches_push (val := fun c h => { prev := h.prev, next := c, value := v }) (g := fun p m => { m with next := p }) (g' := fun p m => { m with prev := p }) (fun _ _ => rfl) rfl

/-- The head, the node next to it and the node after that. -/
def DS.triple (s : DS T) (f : DNode T → Option Nat) : List Nat := s.pair f ++ (follow s f (follow s f s.l.head)).toList

/-- The rest of `TryPopFront` and `TryPopBack`. -/
theorem together_popped (node : Option Nat) (val : T) (hs : DAlike L n s s') (hp : Open L n node) {x y : GoM (DS T) Unit} {f g : DNode T → DNode T} (ex : x = DS.write f node) (ey : y = DS.write g node) :
    DTogether L n 0 s s' ((do x; y; GoM.modify (fun s => { s with l := { s.l with length := s.l.length - 1 } }); return (val, true) : GoM (DS T) (T × Bool)) s)
      ((do x; y; GoM.modify (fun s => { s with l := { s.l with length := s.l.length - 1 } }); return (val, true) : GoM (DS T) (T × Bool)) s') := by
  subst ex ey
  refine together_bind (k := 0) (k' := 0) (together_write _ hs hp) fun _ t t' _ _ ht => ?_
  refine together_bind (k := 0) (k' := 0) (together_write _ ht hp) fun _ t t' _ _ ht => ?_
  refine together_bind (k := 0) (k' := 0) (together_modify ht (fun _ => rfl) (by simp only [ht.1])) fun _ t t' _ _ ht => ?_
  exact together_pure ht _

theorem load_after_write {c : Option Nat} {f : DNode T → DNode T} {m h : DNode T} {s t u : DS T} {un : Unit} (e0 : DS.load c s = .ok m s) (e1 : DS.write f c s = .ok un t)
    (e2 : DS.load c t = .ok h u) : h = f m := by
  obtain ⟨q, m', rfl, h1, rfl⟩ := write_ok e1
  obtain ⟨_, q', e, h2⟩ := load_ok e0
  injection e with e; subst e
  obtain ⟨_, q', e, h3⟩ := load_ok e2
  injection e with e; subst e
  rw [h1] at h2
  injection h2 with h2; subst h2
  have : q < s.heap.length := by
    rcases Nat.lt_or_ge q s.heap.length with h | h
    · exact h
    · rw [List.getElem?_eq_none h] at h1; exact nomatch h1
  simp only [List.getElem?_set_self this] at h3
  injection h3 with h3
  exact h3.symm

theorem touches_tryPopFront [GoZero T] : Touches DS.heap DS.l (s.triple DNode.next) 0 DL.tryPopFront s := by
  intro s' hs
  unfold DL.tryPopFront
  rw [isEmpty_bind, isEmpty_bind, hs.1]
  cases s.l.length == 0 with
  | true => exact together_pure hs _
  | false =>
    refine together_get ?_
    rw [hs.1]
    have oh : Open (s.triple DNode.next) s.heap.length s.l.head := open_mem fun q e => by simp [DS.triple, DS.pair, e]
    refine together_bind (k := 0) (k' := 0) (together_load hs oh) fun h u u' eh _ hu => ?_
    obtain ⟨rfl, _⟩ := load_ok eh
    have on : Open (u.triple DNode.next) u.heap.length h.next := open_mem fun q e2 => by simp [DS.triple, DS.pair, follow_of_load eh, e2]
    refine together_bind (k := 0) (k' := 0) (together_load hu on) fun m v v' em _ hv => ?_
    obtain ⟨rfl, _⟩ := load_ok em
    have onn : Open (v.triple DNode.next) v.heap.length m.next := open_mem fun q e2 => by simp [DS.triple, DS.pair, follow_of_load eh, follow_of_load em, e2]
    refine together_bind (k := 0) (k' := 0) (together_setNext hv oh) fun _ w w' ew _ hw => ?_
    refine together_bind (k := 0) (k' := 0) (together_load hw oh) fun h' x x' ex _ hx => ?_
    have := load_after_write (f := fun n => { n with next := m.next }) eh ew ex
    subst this
    refine together_bind (k := 0) (k' := 0) (together_setPrev hx onn) fun _ y y' _ _ hy => ?_
    exact together_popped _ _ hy on rfl rfl

theorem touches_tryPopBack [GoZero T] : Touches DS.heap DS.l (s.triple DNode.prev) 0 DL.tryPopBack s := by
  intro s' hs
  unfold DL.tryPopBack
  rw [isEmpty_bind, isEmpty_bind, hs.1]
  cases s.l.length == 0 with
  | true => exact together_pure hs _
  | false =>
    refine together_get ?_
    rw [hs.1]
    have oh : Open (s.triple DNode.prev) s.heap.length s.l.head := open_mem fun q e => by simp [DS.triple, DS.pair, e]
    refine together_bind (k := 0) (k' := 0) (together_load hs oh) fun h u u' eh _ hu => ?_
    obtain ⟨rfl, _⟩ := load_ok eh
    have on : Open (u.triple DNode.prev) u.heap.length h.prev := open_mem fun q e2 => by simp [DS.triple, DS.pair, follow_of_load eh, e2]
    refine together_bind (k := 0) (k' := 0) (together_load hu on) fun m v v' em _ hv => ?_
    obtain ⟨rfl, _⟩ := load_ok em
    refine together_bind (k := 0) (k' := 0) (together_load hv on) fun m2 v2 v2' em2 _ hv2 => ?_
    obtain ⟨rfl, _⟩ := load_ok em2
    have onn : Open (v2.triple DNode.prev) v2.heap.length m2.prev := open_mem fun q e2 => by simp [DS.triple, DS.pair, follow_of_load eh, follow_of_load em2, e2]
    refine together_bind (k := 0) (k' := 0) (together_setPrev hv2 oh) fun _ w w' ew _ hw => ?_
    refine together_bind (k := 0) (k' := 0) (together_load hw oh) fun h' x x' ex _ hx => ?_
    have := load_after_write (f := fun n => { n with prev := m2.prev }) eh ew ex
    subst this
    refine together_bind (k := 0) (k' := 0) (together_setNext hx onn) fun _ y y' _ _ hy => ?_
    exact together_popped _ _ hy on rfl rfl

theorem touches_after {x : GoM (DS T) (T × Bool)} (hx : Touches DS.heap DS.l L k x s) : Touches DS.heap DS.l L k (do let r ← x; if r.2 = false then GoM.panic else return r.1) s := by
  intro s' hs
  refine together_bind (k := k) (k' := 0) (hx s' hs) fun a t t' _ _ ht => ?_
  split
  · exact together_panic ht
  · exact together_pure ht _

theorem touches_popFront [GoZero T] : Touches DS.heap DS.l (s.triple DNode.next) 0 DL.popFront s := touches_after touches_tryPopFront

theorem touches_popBack [GoZero T] : Touches DS.heap DS.l (s.triple DNode.prev) 0 DL.popBack s := touches_after touches_tryPopBack

theorem touches_read {x : GoM (DS T) α} (f : DL → α) (hx : x = fun s => .ok (f s.l) s) : Touches DS.heap DS.l [] 0 x s := by
  intro s' hs
  subst hx
  exact ⟨by simp only [hs.1], hs, Spared.rfl' _, Spared.rfl' _, by omega⟩

theorem touches_iterate : Touches DS.heap DS.l s.l.head.toList 0 DL.iterate s := by
  intro s' hs
  unfold DL.iterate
  refine together_get ?_
  rw [hs.1]
  split
  · refine together_bind (k := 0) (k' := 0) (together_load hs (open_mem fun q e => by simp [e])) fun _ t t' _ _ ht => ?_
    exact together_pure ht _
  · exact together_pure hs _

theorem touches_loaded (p : Option Nat) (f : DNode T → α) : Touches DS.heap DS.l p.toList 0 (do let n ← DS.load p; return f n) s := by
  intro s' hs
  refine together_bind (k := 0) (k' := 0) (together_load hs (open_mem fun q e => by simp [e])) fun _ t t' _ _ ht => ?_
  exact together_pure ht _

end DL
/-! ## Singly linked lists -/

section LL
variable {s s' : LS T}

abbrev LAlike (L : List Nat) (n : Nat) (s s' : LS T) : Prop := Alike LS.heap LS.l L n s s'
abbrev LTogether (L : List Nat) (n k : Nat) (s s' : LS T) : Res (LS T) α → Res (LS T) α → Prop := Together LS.heap LS.l L n k s s'

theorem together_loadL {p : Option Nat} (hs : LAlike L n s s') (hp : Open L n p) : LTogether L n k s s' (LS.load p s) (LS.load p s') := by
  cases p with
  | none => exact ⟨hs, Spared.rfl' _, Spared.rfl' _, by omega⟩
  | some q =>
    unfold LS.load
    simp only [hs.2.2 q (hp q rfl)]
    cases s.heap[q]? with
    | none => exact ⟨hs, Spared.rfl' _, Spared.rfl' _, by omega⟩
    | some m => exact ⟨rfl, hs, Spared.rfl' _, Spared.rfl' _, by omega⟩

theorem together_setNextL {p v : Option Nat} (hs : LAlike L n s s') (hp : Open L n p) : LTogether L n k s s' (LS.setNext p v s) (LS.setNext p v s') := by
  cases p with
  | none => exact ⟨hs, Spared.rfl' _, Spared.rfl' _, by omega⟩
  | some q =>
    unfold LS.setNext
    simp only [hs.2.2 q (hp q rfl)]
    cases e : s.heap[q]? with
    | none => exact ⟨hs, Spared.rfl' _, Spared.rfl' _, by omega⟩
    | some m => exact ⟨rfl, ⟨hs.1, alike_set hs.2.1 hs.2.2⟩, spared_set (hp q rfl), spared_set (hp q rfl), by simp⟩

theorem together_allocL (m : LNode T) (hs : LAlike L n s s') (hn : n ≤ s.heap.length) : LTogether L n 1 s s' (LS.alloc m s) (LS.alloc m s') := by
  have hl := hs.2.1
  refine ⟨by rw [hl], ⟨hs.1, by simp [hl], fun p hp => ?_⟩, fun p _ h2 => ?_, fun p _ h2 => ?_, by simp⟩
  · have := hs.2.2 p hp
    simp only [List.getElem?_append, hl]
    split
    · exact this
    · rfl
  · exact List.getElem?_append_left (by omega)
  · exact List.getElem?_append_left (by omega)

theorem isEmpty_bindL {f : Bool → GoM (LS T) α} : (LL.isEmpty >>= f) s = f (s.l.length == 0) s := rfl

/-- A change of the receiver that depends on the receiver alone. -/
theorem together_recv {g : LS T → LS T} (hs : LAlike L n s s') (f : LL → LL) (hg : ∀ s, g s = { s with l := f s.l }) : LTogether L n k s s' (GoM.modify g s) (GoM.modify g s') :=
  together_modify hs (fun s => by rw [hg]) (by rw [hg, hg]; simp only [hs.1])

theorem touches_readL {x : GoM (LS T) α} (f : LL → α) (hx : x = fun s => .ok (f s.l) s) : Touches LS.heap LS.l [] 0 x s := by
  intro s' hs
  subst hx
  exact ⟨by simp only [hs.1], hs, Spared.rfl' _, Spared.rfl' _, by omega⟩

theorem touches_clearL : Touches LS.heap LS.l [] 0 LL.clear s := fun _ hs => together_recv hs (fun _ => {}) fun _ => rfl

theorem touches_loadedL (p : Option Nat) (f : LNode T → α) : Touches LS.heap LS.l p.toList 0 (do let n ← LS.load p; return f n) s := by
  intro s' hs
  refine together_bind (k := 0) (k' := 0) (together_loadL hs (open_mem fun q e => by simp [e])) fun _ t t' _ _ ht => ?_
  exact together_pure ht _

theorem touches_frontL : Touches LS.heap LS.l s.l.head.toList 0 LL.front s := by
  intro s' hs
  unfold LL.front
  rw [isEmpty_bindL, isEmpty_bindL, hs.1]
  cases s.l.length == 0 with
  | true => exact together_panic hs
  | false =>
    refine together_get ?_
    rw [hs.1]
    exact touches_loadedL _ _ _ hs

theorem touches_backL : Touches LS.heap LS.l s.l.tail.toList 0 LL.back s := by
  intro s' hs
  unfold LL.back
  rw [isEmpty_bindL, isEmpty_bindL, hs.1]
  cases s.l.length == 0 with
  | true => exact together_panic hs
  | false =>
    refine together_get ?_
    rw [hs.1]
    exact touches_loadedL _ _ _ hs

theorem touches_pushFrontL (v : T) : Touches LS.heap LS.l [] 1 (LL.pushFront v) s := by
  intro s' hs
  unfold LL.pushFront
  refine together_get ?_
  rw [hs.1]
  refine together_bind (k := 1) (k' := 0) (together_allocL _ hs (Nat.le_refl _)) fun node t t' _ _ ht => ?_
  refine together_bind (k := 0) (k' := 0) (together_recv ht (fun l => { l with head := node }) fun _ => rfl) fun _ t t' _ _ ht => ?_
  refine together_bind (k := 0) (k' := 0) (together_recv ht (fun l => if l.tail = none then { l with tail := node } else l) fun s => by split <;> rfl) fun _ t t' _ _ ht => ?_
  exact together_recv ht (fun l => { l with length := l.length + 1 }) fun _ => rfl

theorem touches_pushBackL (v : T) : Touches LS.heap LS.l s.l.tail.toList 1 (LL.pushBack v) s := by
  intro s' hs
  unfold LL.pushBack
  refine together_bind (k := 1) (k' := 0) (together_allocL _ hs (Nat.le_refl _)) fun node t t' e _ ht => ?_
  have el : t.l = s.l := by unfold LS.alloc at e; injection e with _ e; rw [← e]
  refine together_bind (k := 0) (k' := 0) ?_ fun _ t t' _ _ ht => ?_
  · unfold LL.linkTail
    refine together_get ?_
    rw [ht.1, el]
    split
    · exact together_setNextL ht (open_mem fun q e => by simp [e])
    · exact together_pure ht _
  refine together_bind (k := 0) (k' := 0) (together_recv ht (fun l => { l with tail := node }) fun _ => rfl) fun _ t t' _ _ ht => ?_
  refine together_bind (k := 0) (k' := 0) (together_recv ht (fun l => if l.head = none then { l with head := node } else l) fun s => by split <;> rfl) fun _ t t' _ _ ht => ?_
  exact together_recv ht (fun l => { l with length := l.length + 1 }) fun _ => rfl

theorem touches_popFrontL : Touches LS.heap LS.l s.l.head.toList 0 LL.popFront s := by
  intro s' hs
  unfold LL.popFront
  rw [isEmpty_bindL, isEmpty_bindL, hs.1]
  cases s.l.length == 0 with
  | true => exact together_panic hs
  | false =>
    refine together_get ?_
    rw [hs.1]
    have oh : Open s.l.head.toList s.heap.length s.l.head := open_mem fun q e => by simp [e]
    refine together_bind (k := 0) (k' := 0) (together_loadL hs oh) fun m t t' _ _ ht => ?_
    refine together_bind (k := 0) (k' := 0) (together_recv ht (fun l => { l with head := m.next }) fun _ => rfl) fun _ t t' _ _ ht => ?_
    refine together_bind (k := 0) (k' := 0) (together_recv ht (fun l => if l.head = none then { l with tail := none } else l) fun s => by split <;> rfl) fun _ t t' _ _ ht => ?_
    refine together_bind (k := 0) (k' := 0) (together_recv ht (fun l => { l with length := l.length - 1 }) fun _ => rfl) fun _ t t' _ _ ht => ?_
    refine together_bind (k := 0) (k' := 0) (together_loadL ht oh) fun m t t' _ _ ht => ?_
    exact together_pure ht _

end LL
end Stl4go
