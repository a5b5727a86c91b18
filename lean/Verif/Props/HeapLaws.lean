import Verif.Proofs.HeapLaws
import Verif.Props.Heap
/-!
# Property C173: laws that relate calls of the heap functions

The comparison functions of `C173_first` and `C173_last` are any Go code, which may reach the heap and its variable (`LessA`).
-/
namespace Stl4go
variable {T U τ : Type}

/-- C173, index 0: `RemoveHeapFunc(&h, 0, less)` and `PopHeapFunc(&h, less)` are the same: the same calls of `less`, the same writes, the
same result, or the same panic with the same state. -/
theorem C173_first (less : LessA T τ) : removeHeapFuncA 0 less = popHeapFuncA less := by
  funext s
  simp only [removeHeapFuncA, popHeapFuncA, GoM.bind_def, HS.recv]
  by_cases hn : (s.heap.len : Int) - 1 = 0
  · rw [hn, heapSwapM_self s.heap s (by omega)]
    have e : removeHeapFuncSiftA s.heap 0 0 less = pure () := by rw [removeHeapFuncSiftA, if_neg (by simp)]
    rw [e]
    simp only [GoM.pure_apply, heapDownFuncA, heapDownFuncLoopA]
    rfl
  · rw [removeHeapFuncSiftA_first less s.heap _ hn]
    simp only [GoM.bind_def]
    cases heapSwapM s.heap 0 ((s.heap.len : Int) - 1) s with
    | ok u s1 =>
      simp only
      cases heapDownFuncA s.heap 0 ((s.heap.len : Int) - 1).toNat less s1 <;> rfl
    | panic s1 => rfl
    | diverge => rfl

/-- C173, last index: `RemoveHeapFunc(&h, len(h)-1, less)` gives the last element and cuts it off. It does not call `less` and writes
nothing, also if `h` is not a heap. -/
theorem C173_last (less : LessA T τ) (s : HS T τ) (hw : s.heap.WF s.mem) (h0 : 0 < s.heap.len) :
    removeHeapFuncA ((s.heap.len : Int) - 1) less s =
      .ok (s.mem.cell (s.heap.off + (s.heap.len - 1))) { s with heap := { s.heap with len := s.heap.len - 1 } } := by
  have hs : (0 : Int) ≤ 0 ∧ (0 : Int) ≤ (s.heap.len : Int) - 1 ∧ (s.heap.len : Int) - 1 ≤ s.heap.cap := ⟨by omega, by omega, by have := hw.1; omega⟩
  have hg : (0 : Int) ≤ (s.heap.len : Int) - 1 ∧ (s.heap.len : Int) - 1 < s.heap.len := ⟨by omega, by omega⟩
  have e : ((s.heap.len : Int) - 1).toNat = s.heap.len - 1 := by omega
  simp only [removeHeapFuncA, GoM.bind_def, HS.recv, removeHeapFuncSiftA, ne_eq, not_true_eq_false, if_false, GoM.pure_apply, HS.on, Sl.slice, if_pos hs,
    HS.assign, Sl.get, if_pos hg, Int.sub_zero, e, Int.toNat_zero, Nat.add_zero, Nat.sub_zero]

/-- C173, making a heap of a heap: nothing changes if no element is less than its parent, whatever `less` is. -/
theorem C173_make (less : T → T → Bool) (a : List T) (h : IsHeap less a) : makeHeapFunc a less = .ret a := makeHeapFunc_heap h

/-- C173, test: `IsMinHeap(a)` is true exactly if `MakeMinHeap(a)` would change nothing. -/
theorem C173_test [GoOrd T] [LawfulGoOrd T] (a : List T) : isMinHeap a = .ret true ↔ makeMinHeap a = .ret a := by
  obtain ⟨b, e, hb⟩ := C08_isMinHeap_iff a
  rw [e]
  constructor
  · intro h
    injection h with h
    rw [makeMinHeap_eq]
    exact makeHeapFunc_heap (hb.1 h)
  · intro h
    obtain ⟨h', e', _, hh⟩ := C07_makeMinHeap a
    rw [h] at e'
    injection e' with e'
    subst e'
    rw [hb.2 hh]

/-- C173, pushing: an element that is not less than its parent, the one at index `(len(h)-1)/2`, just stays at the end; the rest of the
slice, heap or not, is as before. -/
theorem C173_push (less : T → T → Bool) (h : List T) (v : T) (hv : ∀ p, h[(h.length - 1) / 2]? = some p → less v p = false) :
    pushHeapFunc h v less = .ret (h ++ [v]) := pushHeapFunc_stays hv

/-- C173, ascending order: pushing the elements of a sorted slice in turn, and making a heap of it, both give the sorted slice. -/
theorem C173_ascending (less : T → T → Bool) (a : List T) (hs : SortedBy less a) :
    a.foldlM (fun h v => pushHeapFunc h v less) [] = .ret a ∧ makeHeapFunc a less = .ret a := by
  refine ⟨?_, makeHeapFunc_heap (fun i hi h0 => hs _ _ (by omega) hi (by omega))⟩
  have : ∀ (b h : List T), h ++ b = a → b.foldlM (fun h v => pushHeapFunc h v less) h = .ret a := by
    intro b
    induction b with
    | nil => intro h e; simp at e; subst e; rfl
    | cons v b ih =>
      intro h e
      have hp : pushHeapFunc h v less = .ret (h ++ [v]) := by
        refine pushHeapFunc_stays (fun p hp => ?_)
        obtain ⟨hlt, hp⟩ := List.getElem?_eq_some_iff.1 hp
        have h1 : h.length < a.length := by rw [← e]; simp
        have := hs ((h.length - 1) / 2) h.length (by omega) h1 hlt
        have e1 : a[h.length]'h1 = v := by subst e; simp
        have e2 : a[(h.length - 1) / 2]'(by omega) = p := by subst e; rw [List.getElem_append_left hlt]; exact hp
        rw [e1, e2] at this; exact this
      rw [List.foldlM_cons, hp]
      exact ih (h ++ [v]) (by rw [← e]; simp)
  exact this a [] rfl

/-- C173, only answers count: let `f` turn elements into others that compare alike. Then the heap functions on the slice of the images
do what they do on the slice itself, also where they panic. For instance a heap of structs ordered by a field goes the way of the heap of
the fields. -/
theorem C173_rename (f : T → U) (less : T → T → Bool) (less' : U → U → Bool) (hf : ∀ a b, less' (f a) (f b) = less a b) (h : List T) :
    makeHeapFunc (h.map f) less' = List.map f <$> makeHeapFunc h less ∧
    (∀ v, pushHeapFunc (h.map f) (f v) less' = List.map f <$> pushHeapFunc h v less) ∧
    popHeapFunc (h.map f) less' = (fun r => (f r.1, r.2.map f)) <$> popHeapFunc h less ∧
    ∀ i, removeHeapFunc (h.map f) i less' = (fun r => (f r.1, r.2.map f)) <$> removeHeapFunc h i less :=
  ⟨makeHeapFunc_map hf h, pushHeapFunc_map hf h, popHeapFunc_map hf h, removeHeapFunc_map hf h⟩

/-- C173, fields: the same, between a heap ordered by a field `f` and `MinHeap` functions on the fields. -/
theorem C173_field [GoOrd U] (f : T → U) (h : List T) :
    makeMinHeap (h.map f) = List.map f <$> makeHeapFunc h (fun a b => GoOrd.lt (f a) (f b)) ∧
    (∀ v, pushMinHeap (h.map f) (f v) = List.map f <$> pushHeapFunc h v (fun a b => GoOrd.lt (f a) (f b))) ∧
    popMinHeap (h.map f) = (fun r => (f r.1, r.2.map f)) <$> popHeapFunc h (fun a b => GoOrd.lt (f a) (f b)) ∧
    ∀ i, removeMinHeap (h.map f) i = (fun r => (f r.1, r.2.map f)) <$> removeHeapFunc h i (fun a b => GoOrd.lt (f a) (f b)) := by
  obtain ⟨h1, h2, h3, h4⟩ := C173_rename f (fun a b => GoOrd.lt (f a) (f b)) GoOrd.lt (fun _ _ => rfl) h
  refine ⟨by rw [makeMinHeap_eq]; exact h1, fun v => by rw [pushMinHeap_eq]; exact h2 v, by rw [popMinHeap_eq]; exact h3,
    fun i => by rw [removeMinHeap_eq]; exact h4 i⟩

/-- Pairs ordered by the first component, and their first components. -/
example : popHeapFunc [((1 : Int), 'a'), (2, 'b'), (1, 'c')] (fun a b => GoOrd.lt a.1 b.1) = .ret ((1, 'a'), [(1, 'c'), (2, 'b')]) ∧
    popMinHeap [(1 : Int), 2, 1] = .ret (1, [1, 2]) := by decide
/-- Removing from the middle is another matter than popping. -/
example : removeMinHeap [(1 : Int), 2, 3, 4] 1 = .ret (2, [1, 4, 3]) ∧ removeMinHeap [(1 : Int), 2, 3, 4] 0 = .ret (1, [2, 4, 3]) ∧
    popMinHeap [(1 : Int), 2, 3, 4] = .ret (1, [2, 4, 3]) ∧ removeMinHeap [(1 : Int), 2, 3, 4] 3 = .ret (4, [1, 2, 3]) := by decide
/-- A slice that is no heap is changed. -/
example : makeMinHeap [(2 : Int), 1] = .ret [1, 2] ∧ isMinHeap [(2 : Int), 1] = .ret false ∧ makeMinHeap [(1 : Int), 3, 2] = .ret [1, 3, 2] := by decide

end Stl4go
