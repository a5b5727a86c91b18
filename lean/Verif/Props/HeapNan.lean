import Verif.Proofs.HeapNan
import Verif.Props.Rename
/-!
# C179: NaN in heaps and priority queues

C178 is about heaps without NaN. `Inert less z` says that `z` is neither less nor greater than anything.
-/
namespace Stl4go
variable {T : Type}

section Func
variable {less : T → T → Bool}

/-- C179: `MakeHeapFunc` and `PushHeapFunc` never move an inert element, whatever the order of the others. -/
theorem C179_stay (h : List T) :
    (∃ h', makeHeapFunc h less = .ret h' ∧ h'.Perm h ∧ InertStay less h h') ∧
    (∀ v, ∃ h', pushHeapFunc h v less = .ret h' ∧ h'.Perm (v :: h) ∧ InertStay less (h ++ [v]) h') := by
  refine ⟨?_, fun v => ?_⟩
  · obtain ⟨h', e1, e2⟩ := makeHeapFuncLoop_inertStay (less := less) h.length (h.length / 2) h (Nat.le_refl _)
    obtain ⟨h'', g1, g2⟩ := makeHeapFuncLoop_any (less := less) h.length (h.length / 2) h (Nat.le_refl _)
    rw [e1] at g1; cases g1
    exact ⟨h', e1, g2, e2⟩
  · obtain ⟨h', e1, e2⟩ := heapUpFuncLoop_inertStay (less := less) (h.length + 1) (h ++ [v]) h.length (by omega) (by simp)
    obtain ⟨h'', g1, g2, -⟩ := heapUpFuncLoop_any (less := less) (h.length + 1) (h ++ [v]) h.length (by omega) (by simp)
    rw [e1] at g1; cases g1
    exact ⟨h', by simp [pushHeapFunc, heapUpFunc, e1], g2.trans List.perm_append_comm, e2⟩

/-- C179: pushing an inert element appends it. -/
theorem C179_push (h : List T) (z : T) (hz : Inert less z) : pushHeapFunc h z less = .ret (h ++ [z]) := by
  have : heapUpFunc (h ++ [z]) h.length less = .ret (h ++ [z]) := heapUpFunc_inert _ _ (by simp) (by simpa using hz)
  simp [pushHeapFunc, this]

/-- C179: if the last element is inert, `PopHeapFunc` and `RemoveHeapFunc` put it in the place of the one they remove and move no other. -/
theorem C179_last (h : List T) (z : T) (hz : Inert less z) (i : Nat) (hi : i < h.length) :
    popHeapFunc (h ++ [z]) less = .ret (h[0]'(by omega), h.set 0 z) ∧
    removeHeapFunc (h ++ [z]) (i : Int) less = .ret (h[i], h.set i z) := by
  have hz' : Inert less ((h ++ [z])[h.length]'(by simp)) := by simpa using hz
  refine ⟨?_, ?_⟩
  · rw [popHeapFunc_last (h ++ [z]) h.length (by simp) hz']
    rw [List.getElem_append_left (by omega), List.set_append_left _ _ (by omega)]
    simp
  · rw [removeHeapFunc_last (h ++ [z]) h.length i (by simp) (by simp; omega) hz']
    rw [List.getElem_append_left (by omega), List.set_append_left _ _ (by omega)]
    simp

/-- C179: `PopHeapFunc` returns the root, and what it leaves does not depend on it. -/
theorem C179_root (x : T) (mid : List T) : ∃ out : List T, out.Perm mid ∧ ∀ y, popHeapFunc (y :: mid) less = .ret (y, out) := by
  obtain ⟨r, out, e, p⟩ : ∃ r out, popHeapFunc (x :: mid) less = .ret (r, out) ∧ (r :: out).Perm (x :: mid) := by
    obtain ⟨h', g1, g2⟩ := popHeapFunc_any (less := less) (x :: mid) (by simp)
    exact ⟨_, h', g1, g2⟩
  have hx := popHeapFunc_root (less := less) x x mid
  rw [e] at hx
  have hr : r = x := by
    have : Outcome.ret (r, out) = Outcome.ret (x, out) := hx
    cases this; rfl
  subst hr
  refine ⟨out, List.Perm.cons_inv p, fun y => ?_⟩
  rw [popHeapFunc_root r y mid, e]; rfl

/-- C179: pushing an inert element and popping twice returns the root and then the inert one, and leaves what popping the root alone leaves. -/
theorem C179_twice (x z : T) (mid : List T) (hz : Inert less z) :
    ∃ out, popHeapFunc (x :: mid) less = .ret (x, out) ∧
      (do let h ← pushHeapFunc (x :: mid) z less
          let (a, h) ← popHeapFunc h less
          let (b, h) ← popHeapFunc h less
          pure (a, b, h)) = .ret (x, z, out) := by
  obtain ⟨out, -, h⟩ := C179_root (less := less) x mid
  refine ⟨out, h x, ?_⟩
  rw [C179_push _ z hz]
  simp only [Outcome.ret_bind]
  rw [(C179_last (x :: mid) z hz 0 (by simp)).1]
  simp only [Outcome.ret_bind, List.set_cons_zero, h z]
  rfl

/-- C179: inert elements at the end of a slice have no part in `MakeHeapFunc`. -/
theorem C179_tail (s nans : List T) (hz : ∀ z ∈ nans, Inert less z) :
    ∃ h', makeHeapFunc s less = .ret h' ∧ makeHeapFunc (s ++ nans) less = .ret (h' ++ nans) := by
  obtain ⟨⟨h', e, -⟩, -⟩ := C179_stay (less := less) s
  exact ⟨h', e, by rw [makeHeapFunc_tail s nans hz, e]; rfl⟩

/-- C179: `IsHeapFunc` is false for every slice of two elements or more with an inert one among them. -/
theorem C179_isHeapFunc (h : List T) (z : T) (hz : Inert less z) (hm : z ∈ h) (h2 : 2 ≤ h.length) : isHeapFunc h less = .ret false := by
  obtain ⟨b, e1, e2⟩ := isHeapFunc_spec (less := less) h
  cases b with
  | false => exact e1
  | true =>
    have H := e2.1 rfl
    obtain ⟨k, hk, rfl⟩ := List.getElem_of_mem hm
    by_cases h0 : k = 0
    · subst h0
      have := H 1 (by omega) (by omega)
      have g := (hz h[1]).2
      simp only [Nat.sub_self, Nat.zero_div] at this
      rw [g] at this; exact nomatch this
    · have := H k hk (by omega)
      rw [(hz _).1] at this; exact nomatch this

end Func

section Floats
variable [GoOrd T] [FloatOrd T]

/-- C179: NaN is inert. -/
theorem C179_nan (z : T) (hz : isNan z = true) : Inert GoOrd.lt z := fun x => ⟨(FloatOrd.nan z x hz).2.1, (FloatOrd.nan z x hz).1⟩

/-- C179: `PushMinHeap` of anything keeps `IsMinHeap` true, with NaNs anywhere. -/
theorem C179_push_keeps (h : List T) (v : T) (H : isMinHeap h = .ret true) :
    ∃ h', pushMinHeap h v = .ret h' ∧ h'.Perm (v :: h) ∧ isMinHeap h' = .ret true := by
  have hw : HalfWeak (GoOrd.lt : T → T → Bool) := by
    refine ⟨fun a b h => ?_, fun a b c h hx => FloatOrd.between a b c ?_ h⟩
    · cases g : GoOrd.lt b a with
      | false => rfl
      | true =>
        have := FloatOrd.trans _ _ _ h g
        rw [FloatOrd.irrefl] at this; exact nomatch this
    · cases hb : isNan b with
      | false => rfl
      | true =>
        obtain ⟨x, g | g⟩ := hx
        · rw [(FloatOrd.nan b x hb).2.1] at g; exact nomatch g
        · rw [(FloatOrd.nan b x hb).1] at g; exact nomatch g
  obtain ⟨b, e1, e2⟩ := isMinHeap_spec h
  rw [e1] at H; cases H
  obtain ⟨h', g1, g2, g3⟩ := pushHeapFunc_half hw h v (e2.1 rfl)
  obtain ⟨b, f1, f2⟩ := isMinHeap_spec h'
  exact ⟨h', by rw [pushMinHeap_eq]; exact g1, g2, by rw [f1, f2.2 g3]⟩

/-- C179: if `IsMinHeap` is true, no element with only numbers above it is less than the root. -/
theorem C179_above (h : List T) (H : isMinHeap h = .ret true) (i : Nat) (hi : i < h.length) (hc : ClearTo (fun x => isNan x = false) h i) :
    GoOrd.lt h[i] (h[0]'(by omega)) = false := by
  obtain ⟨b, e1, e2⟩ := isMinHeap_spec h
  rw [e1] at H; cases H
  have H := e2.1 rfl
  induction hc with
  | root => exact FloatOrd.irrefl _
  | step i hp h0 _ hn ih =>
    have ih := ih hp
    cases g : GoOrd.lt h[i] (h[0]'(by omega)) with
    | false => rfl
    | true =>
      rcases FloatOrd.between _ _ _ hn g with g | g
      · rw [H i hi h0] at g; exact nomatch g
      · rw [ih] at g; exact nomatch g

/-- C179: `MakeMinHeap` of numbers followed by NaNs makes a heap of the numbers and leaves the NaNs where they are; the root is a least element. -/
theorem C179_numbers_first (s nans : List T) (hs : ∀ x ∈ s, isNan x = false) (hz : ∀ z ∈ nans, isNan z = true) :
    ∃ h', makeMinHeap (s ++ nans) = .ret (h' ++ nans) ∧ h'.Perm s ∧ isMinHeap (h' ++ nans) = .ret true ∧
      ∀ (h0 : 0 < h'.length), ∀ y ∈ s ++ nans, GoOrd.lt y h'[0] = false := by
  obtain ⟨h', e1, e2⟩ := C179_tail (less := GoOrd.lt) s nans (fun z h => C179_nan z (hz z h))
  obtain ⟨h'', g1, g2, g3⟩ := (C178_float_heap s hs).1
  rw [makeMinHeap_eq, e1] at g1
  cases g1
  obtain ⟨b, f1, f2⟩ := isMinHeap_spec h'
  rw [f1] at g3
  have hb : b = true := by cases g3; rfl
  have H := f2.1 hb
  obtain ⟨b', k1, k2⟩ := isMinHeap_spec (h' ++ nans)
  have H' : IsHeap GoOrd.lt (h' ++ nans) := by
    intro i hi h0
    by_cases hl : i < h'.length
    · rw [List.getElem_append_left hl, List.getElem_append_left (by omega)]
      exact H i hl h0
    · rw [List.getElem_append_right (by omega)]
      exact (C179_nan _ (hz _ (List.getElem_mem _)) _).2
  refine ⟨h', by rw [makeMinHeap_eq]; exact e2, g2, by rw [k1, k2.2 H'], fun h0 y hy => ?_⟩
  rcases List.mem_append.1 hy with hy | hy
  · obtain ⟨i, hi, rfl⟩ := List.getElem_of_mem (g2.symm.subset hy)
    have hc : ∀ i, i < h'.length → ClearTo (fun x : T => isNan x = false) h' i := by
      intro i
      induction i using Nat.strongRecOn with
      | ind i ih =>
        intro hi
        by_cases h1 : i = 0
        · subst h1; exact .root
        · exact .step i (by omega) (by omega) (ih _ (by omega) (by omega)) (hs _ (g2.subset (List.getElem_mem _)))
    exact C179_above h' (by rw [f1, hb]) i hi (hc i hi)
  · exact (C179_nan y (hz y hy) _).2

/-- C179, queues: if the queue has elements, pushing a NaN does not change `Top`; of the next two calls of `Pop` the first returns that
element and the second the NaN, and the queue is then what one `Pop` without the NaN leaves. -/
theorem C179_queue (h : List T) (x z : T) (hz : isNan z = true) :
    ∃ q1 q2 q3, PQ.push { heap := x :: h, impl := .ordered ‹GoOrd T› } z = .ret q1 ∧ q1.top = .ret x ∧ q1.pop = .ret (x, q2) ∧
      q2.pop = .ret (z, q3) ∧ PQ.pop { heap := x :: h, impl := .ordered ‹GoOrd T› } = .ret (x, q3) := by
  obtain ⟨out, -, ho⟩ := C179_root (less := (GoOrd.lt : T → T → Bool)) x h
  have hp := C179_push (x :: h) z (C179_nan z hz)
  have hl := (C179_last (x :: h) z (C179_nan z hz) 0 (by simp)).1
  refine ⟨{ heap := x :: h ++ [z], impl := .ordered ‹GoOrd T› }, { heap := z :: h, impl := .ordered ‹GoOrd T› }, { heap := out, impl := .ordered ‹GoOrd T› }, ?_, ?_, ?_, ?_, ?_⟩
  · simp only [PQ.push, pushMinHeap_eq, hp]; rfl
  · rfl
  · simp only [PQ.pop, popMinHeap_eq, hl]; rfl
  · simp only [PQ.pop, popMinHeap_eq, ho]; rfl
  · simp only [PQ.pop, popMinHeap_eq, ho]; rfl

end Floats

/-- C179, what goes wrong. `IsMinHeap` is true of a slice whose root is not least. `MakeMinHeap` need not make a heap. `PopMinHeap` of a heap
with its least element at the root need not leave a heap, and the next `Pop` then returns an element that is not least. -/
theorem C179_breaks :
    isMinHeap [Flt.fin 5, .nan, .fin 6, .fin 1] = .ret true ∧
    (makeMinHeap [Flt.fin 3, .nan, .fin 1] = .ret [.fin 3, .nan, .fin 1] ∧ isMinHeap [Flt.fin 3, .nan, .fin 1] = .ret false) ∧
    (isMinHeap [Flt.fin 1, .nan, .fin 8, .fin 2, .fin 9] = .ret true ∧
      popMinHeap [Flt.fin 1, .nan, .fin 8, .fin 2, .fin 9] = .ret (.fin 1, [.fin 9, .nan, .fin 8, .fin 2]) ∧
      isMinHeap [Flt.fin 9, .nan, .fin 8, .fin 2] = .ret false ∧
      popMinHeap [Flt.fin 9, .nan, .fin 8, .fin 2] = .ret (.fin 9, [.fin 2, .nan, .fin 8])) := by decide +kernel

/-- Numbers before NaNs: the heap is made of the numbers. -/
example : makeMinHeap [Flt.fin 3, .fin 2, .inf true, .nan, .nan] = .ret [.inf true, .fin 2, .fin 3, .nan, .nan] := by decide +kernel

/-- Pushing below a NaN: 1 stops there, and it is still a heap by `IsMinHeap`. -/
example : pushMinHeap [Flt.fin 5, .nan, .fin 6] (.fin 1) = .ret [.fin 5, .nan, .fin 6, .fin 1] := by decide +kernel

/-- Positions 1 and 2 are reached over numbers only. -/
example : ClearTo (fun x : Flt => isNan x = false) [Flt.fin 5, .nan, .fin 6, .fin 1] 1 := .step 1 (by decide) (by decide) .root (by decide)

end Stl4go
