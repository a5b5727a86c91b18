import Verif.Proofs.Footprint
/-!
# C170: operations at the ends of linked lists have to do with a constant number of nodes

`Touches … L k x s` (`Spec/Footprint.lean`): whatever the other nodes contain, `x` does the same; it leaves them as they are; it makes at most `k` new nodes.
-/
namespace Stl4go
variable {T : Type}

theorem length_toList (p : Option Nat) : p.toList.length ≤ 1 := by cases p <;> simp

theorem length_pair (s : DS T) (f : DNode T → Option Nat) : (s.pair f).length ≤ 2 := by
  have h1 := length_toList s.l.head
  have h2 := length_toList (follow s f s.l.head)
  simp only [DS.pair, List.length_append]
  omega

theorem length_triple (s : DS T) (f : DNode T → Option Nat) : (s.triple f).length ≤ 3 := by
  have h1 := length_pair s f
  have h2 := length_toList (follow s f (follow s f s.l.head))
  simp only [DS.triple, List.length_append]
  omega

/-- C170: `DList`. No method but the loops has to do with more than three nodes, in any list whatsoever; `PushFront` and `PushBack` make at most two nodes (one of them the head, which
is made once). -/
theorem C170_dlist [GoZero T] (s : DS T) :
    (∀ v : T, ∃ L : List Nat, L.length ≤ 2 ∧ Touches DS.heap DS.l L 2 (DL.pushFront v) s) ∧
    (∀ v : T, ∃ L : List Nat, L.length ≤ 2 ∧ Touches DS.heap DS.l L 2 (DL.pushBack v) s) ∧
    (∃ L : List Nat, L.length ≤ 3 ∧ Touches DS.heap DS.l L 0 DL.popFront s ∧ Touches DS.heap DS.l L 0 DL.tryPopFront s) ∧
    (∃ L : List Nat, L.length ≤ 3 ∧ Touches DS.heap DS.l L 0 DL.popBack s ∧ Touches DS.heap DS.l L 0 DL.tryPopBack s) ∧
    (∃ L : List Nat, L.length ≤ 2 ∧ Touches DS.heap DS.l L 0 DL.front s) ∧ (∃ L : List Nat, L.length ≤ 2 ∧ Touches DS.heap DS.l L 0 DL.back s) ∧
    Touches DS.heap DS.l [] 0 DL.len s ∧ Touches DS.heap DS.l [] 0 DL.isEmpty s ∧
    (∃ L : List Nat, L.length ≤ 1 ∧ Touches DS.heap DS.l L 0 DL.clear s) :=
  ⟨fun v => ⟨_, length_pair s _, touches_pushFront v⟩, fun v => ⟨_, length_pair s _, touches_pushBack v⟩, ⟨_, length_triple s _, touches_popFront, touches_tryPopFront⟩,
    ⟨_, length_triple s _, touches_popBack, touches_tryPopBack⟩, ⟨_, length_pair s _, touches_front⟩, ⟨_, length_pair s _, touches_back⟩,
    touches_read DL.length rfl, touches_read (fun l => l.length == 0) rfl, ⟨_, length_toList _, touches_clear⟩⟩

/-- C170: the node for the head is made only once: a push to a list that has one makes one node. -/
theorem C170_dlist_one [GoZero T] (s : DS T) (hs : s.l.head ≠ none) (v : T) :
    (∀ t, DL.pushFront v s = .ok () t → t.heap.length = s.heap.length + 1) ∧ ∀ t, DL.pushBack v s = .ok () t → t.heap.length = s.heap.length + 1 := by
  have wr : ∀ (f : DNode T → DNode T) p (s t : DS T) u, DS.write f p s = .ok u t → t.heap.length = s.heap.length := by
    intro f p s t u e
    obtain ⟨q, m, _, _, rfl⟩ := write_ok e
    simp
  have key : ∀ (f : DNode T → Option Nat) (val : DNode T → DNode T) (g g' : Option Nat → DNode T → DNode T) (t : DS T),
      (do
        let h ← DS.load s.l.head
        let p ← DS.alloc (val h)
        let h ← DS.load s.l.head
        DS.write (g p) (f h)
        DS.write (g' p) s.l.head
        GoM.modify (fun s => { s with l := { s.l with length := s.l.length + 1 } }) : GoM (DS T) Unit) s = .ok () t → t.heap.length = s.heap.length + 1 := by
    intro f val g g' t e
    rw [GoM.bind_def] at e
    cases e1 : DS.load s.l.head s with
    | panic u => rw [e1] at e; exact nomatch e
    | diverge => rw [e1] at e; exact nomatch e
    | ok h u =>
      obtain ⟨rfl, _⟩ := load_ok e1
      rw [e1] at e; simp only [] at e
      rw [GoM.bind_def] at e
      simp only [DS.alloc] at e
      rw [GoM.bind_def] at e
      generalize e2 : DS.load u.l.head _ = z at e
      cases z with
      | panic => exact nomatch e
      | diverge => exact nomatch e
      | ok h2 u2 =>
        obtain ⟨rfl, _⟩ := load_ok e2
        simp only [] at e
        rw [GoM.bind_def] at e
        generalize e3 : DS.write (g _) _ _ = z at e
        cases z with
        | panic => exact nomatch e
        | diverge => exact nomatch e
        | ok _ u3 =>
          have := wr _ _ _ _ _ e3
          simp only [] at e
          rw [GoM.bind_def] at e
          generalize e4 : DS.write (g' _) _ _ = z at e
          cases z with
          | panic => exact nomatch e
          | diverge => exact nomatch e
          | ok _ u4 =>
            have h4 := wr _ _ _ _ _ e4
            simp only [GoM.modify_apply] at e
            injection e with _ e
            rw [← e]
            simp only [List.length_append, List.length_cons, List.length_nil] at this
            simp only []
            omega
  refine ⟨fun t e => ?_, fun t e => ?_⟩
  · unfold DL.pushFront at e
    rw [GoM.bind_def, ensureHead_some hs] at e
    exact key DNode.next (fun h => { prev := s.l.head, next := h.next, value := v }) (fun p m => { m with prev := p }) (fun p m => { m with next := p }) t e
  · unfold DL.pushBack at e
    rw [GoM.bind_def, ensureHead_some hs] at e
    exact key DNode.prev (fun h => { prev := h.prev, next := s.l.head, value := v }) (fun p m => { m with next := p }) (fun p m => { m with prev := p }) t e

/-- C170: `DListQueue` likewise. -/
theorem C170_queue [GoZero T] (s : DS T) :
    (∀ v : T, (∃ L : List Nat, L.length ≤ 2 ∧ Touches DS.heap DS.l L 2 (DQ.pushFront v) s) ∧ ∃ L : List Nat, L.length ≤ 2 ∧ Touches DS.heap DS.l L 2 (DQ.pushBack v) s) ∧
    (∃ L : List Nat, L.length ≤ 3 ∧ Touches DS.heap DS.l L 0 DQ.popFront s ∧ Touches DS.heap DS.l L 0 DQ.tryPopFront s) ∧
    (∃ L : List Nat, L.length ≤ 3 ∧ Touches DS.heap DS.l L 0 DQ.popBack s ∧ Touches DS.heap DS.l L 0 DQ.tryPopBack s) ∧
    (∃ L : List Nat, L.length ≤ 2 ∧ Touches DS.heap DS.l L 0 DQ.front s) ∧ (∃ L : List Nat, L.length ≤ 2 ∧ Touches DS.heap DS.l L 0 DQ.back s) ∧
    Touches DS.heap DS.l [] 0 DQ.len s ∧ Touches DS.heap DS.l [] 0 DQ.isEmpty s ∧
    (∃ L : List Nat, L.length ≤ 1 ∧ Touches DS.heap DS.l L 0 DQ.clear s) := by
  obtain ⟨h1, h2, h3⟩ := C170_dlist s
  exact ⟨fun v => ⟨h1 v, h2 v⟩, h3⟩

/-- C170: `SList`. A push to the front touches no node at all, a push to the back only the last one. -/
theorem C170_slist (s : LS T) :
    (∀ v : T, Touches LS.heap LS.l [] 1 (LL.pushFront v) s) ∧ (∀ v : T, ∃ L : List Nat, L.length ≤ 1 ∧ Touches LS.heap LS.l L 1 (LL.pushBack v) s) ∧
    (∃ L : List Nat, L.length ≤ 1 ∧ Touches LS.heap LS.l L 0 LL.popFront s) ∧ (∃ L : List Nat, L.length ≤ 1 ∧ Touches LS.heap LS.l L 0 LL.front s) ∧
    (∃ L : List Nat, L.length ≤ 1 ∧ Touches LS.heap LS.l L 0 LL.back s) ∧
    Touches LS.heap LS.l [] 0 LL.len s ∧ Touches LS.heap LS.l [] 0 LL.isEmpty s ∧ Touches LS.heap LS.l [] 0 LL.clear s :=
  ⟨touches_pushFrontL, fun v => ⟨_, length_toList _, touches_pushBackL v⟩, ⟨_, length_toList _, touches_popFrontL⟩, ⟨_, length_toList _, touches_frontL⟩, ⟨_, length_toList _, touches_backL⟩,
    touches_readL LL.length rfl, touches_readL (fun l => l.length == 0) rfl, touches_clearL⟩

/-- C170: and so do the steps of an iteration: at most one node. -/
theorem C170_iterators (s : DS T) (u : LS T) (it : DIter) (jt : LIter) :
    (∃ L : List Nat, L.length ≤ 1 ∧ Touches DS.heap DS.l L 0 DL.iterate s) ∧ Touches DS.heap DS.l [] 0 it.isNotEnd s ∧
    (∃ L : List Nat, L.length ≤ 1 ∧ Touches DS.heap DS.l L 0 it.moveToNext s ∧ Touches DS.heap DS.l L 0 it.value s) ∧
    Touches LS.heap LS.l [] 0 LL.iterate u ∧ (∃ L : List Nat, L.length ≤ 1 ∧ Touches LS.heap LS.l L 0 jt.moveToNext u ∧ Touches LS.heap LS.l L 0 jt.value u) :=
  ⟨⟨_, length_toList _, touches_iterate⟩, touches_read (fun l => decide (it.node ≠ l.head)) rfl, ⟨_, length_toList it.node, touches_loaded _ _, touches_loaded _ _⟩,
    touches_readL (fun l => { node := l.head }) rfl, ⟨_, length_toList jt.node, touches_loadedL _ _, touches_loadedL _ _⟩⟩

/-! ## Examples -/

/-- A list with the elements 1, 2, 3, 4 and 5; another state that differs in the node of 3. -/
@[irreducible] def exFive : DS Int := match DL.dlistOf [1, 2, 3, 4, 5] ⟨[], {}⟩ with
  | .ok _ s => s
  | _ => ⟨[], {}⟩

def exFive' : DS Int := { exFive with heap := exFive.heap.set 3 ⟨none, none, 30⟩ }

theorem alike_other {L : List Nat} {n q : Nat} (s : DS T) (m : DNode T) (hq : q ∉ L) (hn : q < n) : Alike DS.heap DS.l L n s { s with heap := s.heap.set q m } := by
  refine ⟨rfl, List.length_set, fun p hp => ?_⟩
  have : q ≠ p := by
    rintro rfl
    rcases hp with hp | hp
    · exact hq hp
    · omega
  show (s.heap.set q m)[p]? = s.heap[p]?
  rw [List.getElem?_set, if_neg this]

/-- `PopFront` does not notice the difference, and keeps it. -/
example : exFive.heap.length = 6 ∧ Alike DS.heap DS.l [0, 1, 2] 6 exFive exFive' ∧
    (match DL.popFront exFive, DL.popFront exFive' with
      | .ok a t, .ok b t' => a == 1 && b == 1 && decide (t.heap.set 3 ⟨none, none, 30⟩ = t'.heap) && t.heap[3]? == exFive.heap[3]?
      | _, _ => false) = true :=
  ⟨by decide +kernel, alike_other _ _ (by decide) (by decide), by decide +kernel⟩

/-- What a call returned, if it did. -/
def Res.value? {σ α : Type} : Res σ α → Option α
  | .ok a _ => some a
  | _ => none

theorem touches_value {α : Type} {L : List Nat} {k : Nat} {x : GoM (DS T) α} {s s' : DS T} (h : Touches DS.heap DS.l L k x s) (hs : Alike DS.heap DS.l L s.heap.length s s') :
    (x s').value? = (x s).value? := by
  have := h s' hs
  cases e : x s <;> cases e' : x s' <;> rw [e, e'] at this
  · exact congrArg some this.1
  all_goals first | rfl | exact this.elim

theorem exFive_length : exFive.heap.length = 6 := by decide +kernel

theorem exFive_alike : Alike DS.heap DS.l [0, 1, 2] exFive.heap.length exFive exFive' := by
  rw [exFive_length]
  exact alike_other _ _ (by decide) (by decide)

/-- A loop that adds the elements. -/
def exSum : GoM (DS Int) Int := DL.forEach (fun t v => t + v) 0

theorem exSum_differs : (exSum exFive').value? ≠ (exSum exFive).value? := by decide +kernel

/-- A loop does: `Touches` is not true of everything. -/
example : ¬ Touches DS.heap DS.l [0, 1, 2] 0 exSum exFive := fun h => exSum_differs (touches_value h exFive_alike)

end Stl4go
