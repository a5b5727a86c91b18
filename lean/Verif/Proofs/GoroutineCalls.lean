import Verif.Proofs.Goroutines
import Verif.Proofs.Transform
/-! # Lemmas for C174: the goroutines do what the calls do, and within their slices -/
namespace Stl4go
variable {T α β : Type}

/-! ## The same effects -/

theorem Thread.run_ite (c : Prop) [Decidable c] (x y : Thread T α) : (if c then x else y).run = if c then x.run else y.run := by
  by_cases h : c
  · rw [if_pos h, if_pos h]
  · rw [if_neg h, if_neg h]

theorem run_getT (s : Sl) (i : Int) : (s.getT i : Thread T T).run = s.get i := by
  funext m
  unfold Sl.getT Sl.get
  by_cases h : 0 ≤ i ∧ i < s.len
  · rw [if_pos h, if_pos h]; rfl
  · rw [if_neg h, if_neg h]; rfl

theorem run_putT (s : Sl) (i : Int) (v : T) : (s.putT i v).run = s.put i v := by
  funext m
  unfold Sl.putT Sl.put
  by_cases h : 0 ≤ i ∧ i < s.len
  · rw [if_pos h, if_pos h]; rfl
  · rw [if_neg h, if_neg h]; rfl

theorem run_sliceT (s : Sl) (lo hi : Int) : (s.sliceT lo hi : Thread T Sl).run = s.slice lo hi := by
  funext m
  unfold Sl.sliceT Sl.slice
  by_cases h : 0 ≤ lo ∧ lo ≤ hi ∧ hi ≤ s.cap
  · rw [if_pos h, if_pos h]; rfl
  · rw [if_neg h, if_neg h]; rfl

theorem run_loadsT (p n : Nat) (m : Mem T) : (loadsT p n).run m = .ok ((List.range n).map (fun k => m.cell (p + k))) m := by
  induction n generalizing p with
  | zero => rfl
  | succ n ih =>
    show ((loadsT (p + 1) n).bind (fun vs => .ret (m.cell p :: vs))).run m = _
    rw [Thread.run_bind, GoM.bind_def, ih]
    show Res.ok _ m = _
    rw [List.range_succ_eq_map, List.map_cons, List.map_map]
    congr 2
    apply List.map_congr_left
    intro k _
    show m.cell (p + 1 + k) = m.cell (p + (k + 1))
    congr 1
    omega

theorem run_storesT (p : Nat) (xs : List T) (m : Mem T) : (storesT p xs).run m = .ok () (m.write p xs) := by
  induction xs generalizing p m with
  | nil => show Res.ok () m = _; rw [Mem.write_nil]
  | cons x xs ih =>
    show (storesT (p + 1) xs).run (m.write p [x]) = _
    rw [ih]
    congr 1
    exact Mem.write_append m p [x] xs

theorem run_copyT (dst src : Sl) : (dst.copyT src : Thread T Unit).run = dst.copy src := by
  funext m
  show ((loadsT src.off (min dst.len src.len)).bind (fun xs => storesT dst.off xs)).run m = _
  rw [Thread.run_bind, GoM.bind_def, run_loadsT]
  show (storesT dst.off _).run m = _
  rw [run_storesT]
  show _ = Res.ok () (m.write dst.off ((src.read m).take dst.len))
  congr 2
  rw [Sl.read, ← List.map_take, List.take_range]

section
attribute [local simp] Thread.run_bind Thread.run_ret Thread.run_panic Thread.run_diverge Thread.run_ite run_getT run_putT run_sliceT run_copyT

theorem run_fillLoopT (a : Sl) (fuel : Nat) (j : Int) : (fillLoopT a fuel j : Thread T Unit).run = fillLoop a fuel j := by
  induction fuel generalizing j with
  | zero => rfl
  | succ fuel ih => simp [fillLoopT, fillLoop, ih]

theorem run_fillT (a : Sl) (v : T) : (fillT a v).run = fill a v := by simp [fillT, fill, run_fillLoopT]

theorem run_fillPatternT (a p : Sl) : (fillPatternT a p : Thread T Unit).run = fillPattern a p := by simp [fillPatternT, fillPattern, run_fillLoopT]

theorem run_fillZeroT [GoZero T] (a : Sl) : (fillZeroT a : Thread T Unit).run = fillZero a := by
  funext m
  rw [fillZeroT, run_storesT]; rfl

theorem run_transformLoopT (a : Sl) (op : T → T) (n i : Nat) :
    (transformLoopT a op n i).run = transformLoop a (fun (_ : Unit) v => ((), op v)) n i () := by
  induction n generalizing i with
  | zero => rfl
  | succ n ih => simp [transformLoopT, transformLoop, ih]

theorem run_replaceLoopT [GoEq T] (a : Sl) (old new : T) (n i : Nat) : (replaceLoopT a old new n i).run = replaceLoop a old new n i := by
  induction n generalizing i with
  | zero => rfl
  | succ n ih => simp [replaceLoopT, replaceLoop, ih]

theorem run_uniqueLoopT [GoEq T] (a b : Sl) (n k i : Nat) (prev : T) : (uniqueLoopT a b n k i prev).run = uniqueLoop a b n k i prev := by
  induction n generalizing k i prev with
  | zero => rfl
  | succ n ih => simp [uniqueLoopT, uniqueLoop, ih]

theorem run_uniqueT [GoEq T] (a : Sl) : (uniqueT a : Thread T Sl).run = unique a := by simp [uniqueT, unique, run_uniqueLoopT]

theorem run_removeIfLoopT (a : Sl) (cond : T → Bool) (n k j : Nat) (m : Mem T) : removeIfLoop a (fun (_ : Unit) v => ((), cond v)) n k j () m =
    match (removeIfLoopT a cond n k j).run m with
    | .ok j m => .ok ((), j) m
    | .panic m => .panic m
    | .diverge => .diverge := by
  induction n generalizing k j m with
  | zero => rfl
  | succ n ih =>
    simp only [removeIfLoopT, removeIfLoop, Thread.bind_eq, Thread.run_bind, run_getT, Thread.run_ite, GoM.bind_def, run_putT]
    cases a.get (k : Int) m with
    | ok v m1 =>
      by_cases h : cond v = false
      · simp only [h, if_true, GoM.bind_def]
        cases a.put (j : Int) v m1 <;> simp only [ih]
      · simp only [h, Bool.true_eq_false, if_false, ih]
    | panic m1 => rfl
    | diverge => rfl

theorem run_swapT (a : Sl) (i j : Int) : (swapT a i j : Thread T Unit).run = swapAt a i j := by simp [swapT, swapAt]

theorem run_reverseLoopT (a : Sl) (fuel : Nat) (i j : Int) : (reverseLoopT a fuel i j : Thread T Unit).run = reverseLoop a fuel i j := by
  induction fuel generalizing i j with
  | zero => rfl
  | succ fuel ih => simp [reverseLoopT, reverseLoop, ih, run_swapT]

theorem run_sortProgT (a : Sl) (less : T → T → Bool) (x : SortProg) : (sortProgT a less x).run = x.run (funcSortable a less) := by
  induction x with
  | done => rfl
  | less i j k ih =>
    simp only [sortProgT, SortProg.run, funcSortable, Thread.bind_eq, Thread.run_bind, run_getT, ih]
    funext m
    simp only [GoM.bind_def]
    cases a.get (i : Int) m with
    | ok v m1 => simp only; cases a.get (j : Int) m1 <;> rfl
    | panic m1 => rfl
    | diverge => rfl
  | swap i j k ih => simp only [sortProgT, SortProg.run, funcSortable, Thread.bind_eq, Thread.run_bind, run_swapT, ih]; rfl

end

theorem HS.on_bind {τ : Type} (x : GoM (Mem T) α) (f : α → GoM (Mem T) β) : (HS.on (x >>= f) : GoM (HS T τ) β) = HS.on x >>= fun a => HS.on (f a) := by
  funext s
  simp only [HS.on, GoM.bind_def]
  cases x s.mem <;> rfl

theorem HS.on_pure {τ : Type} (a : α) : (HS.on (pure a) : GoM (HS T τ) α) = pure a := rfl

theorem HS.on_ite {τ : Type} (c : Prop) [Decidable c] (x y : GoM (Mem T) α) :
    (HS.on (if c then x else y) : GoM (HS T τ) α) = if c then HS.on x else HS.on y := by
  by_cases h : c
  · rw [if_pos h, if_pos h]
  · rw [if_neg h, if_neg h]

theorem HS.call_pure_bind {τ : Type} (b : α) (f : α → GoM (HS T τ) β) : (HS.call (pure b) >>= f) = f b := rfl

theorem heapSwapM_run {τ : Type} (a : Sl) (i j : Int) : (heapSwapM a i j : GoM (HS T τ) Unit) = HS.on (swapT a i j).run := by
  rw [run_swapT]
  simp only [swapAt, heapSwapM, HS.on_bind]

theorem heapSmallerChildFuncM_run {τ : Type} (less : T → T → Bool) (a : Sl) (j1 n : Nat) :
    heapSmallerChildFuncM (τ := τ) (fun x y => pure (less x y)) a j1 n = HS.on (heapSmallerChildFuncT less a j1 n).run := by
  simp only [heapSmallerChildFuncM, heapSmallerChildFuncT, HS.call_pure_bind, Thread.run_ite, HS.on_ite, Thread.bind_eq, Thread.pure_eq, Thread.run_bind, HS.on_bind, run_getT,
    Thread.run_ret, HS.on_pure]

theorem heapDownFuncLoopM_run {τ : Type} (less : T → T → Bool) (fuel : Nat) (a : Sl) (i n : Nat) :
    heapDownFuncLoopM (τ := τ) (fun x y => pure (less x y)) fuel a i n = HS.on (heapDownFuncLoopT less fuel a i n).run := by
  induction fuel generalizing i with
  | zero => rfl
  | succ fuel ih =>
    simp only [heapDownFuncLoopM, heapDownFuncLoopT, HS.call_pure_bind, Thread.run_ite, HS.on_ite, Thread.bind_eq, Thread.pure_eq, Thread.run_bind, HS.on_bind, run_getT,
      Thread.run_ret, HS.on_pure, heapSmallerChildFuncM_run, heapSwapM_run, ih]

theorem makeHeapFuncLoopM_run {τ : Type} (less : T → T → Bool) (a : Sl) (n i : Nat) :
    makeHeapFuncLoopM (τ := τ) (fun x y => pure (less x y)) a n i = HS.on (makeHeapFuncLoopT less a n i).run := by
  induction i with
  | zero => rfl
  | succ i ih =>
    simp only [makeHeapFuncLoopM, makeHeapFuncLoopT, Thread.bind_eq, Thread.run_bind, HS.on_bind, heapDownFuncM, heapDownFuncLoopM_run, ih]
    funext s
    simp only [GoM.bind_def]
    cases HS.on (heapDownFuncLoopT less (n + 1) a i n).run s <;> rfl

theorem Sl.read_drop (a : Sl) (m : Mem T) (i : Nat) (h : i < a.len) : (a.read m).drop i = m.cell (a.off + i) :: (a.read m).drop (i + 1) := by
  rw [List.drop_eq_getElem_cons (by simpa using h), Sl.read_getElem]

theorem run_findLoopT [GoEq T] (x : T) (a : Sl) (n i : Nat) (h : i + n = a.len) (m : Mem T) :
    (findLoopT x a n i).run m = .ok (findLoop x ((a.read m).drop i) i) m := by
  induction n generalizing i with
  | zero => rw [List.drop_eq_nil_of_le (by simp; omega)]; rfl
  | succ n ih =>
    rw [Sl.read_drop a m i (by omega)]
    simp only [findLoopT, findLoop, Thread.bind_eq, Thread.run_bind, run_getT, GoM.bind_def, Sl.get_ok a m i (by omega), Thread.run_ite, Sl.read_getElem]
    by_cases e : GoEq.eq (m.cell (a.off + i)) x = true
    · simp only [e, if_true]; rfl
    · simp only [e, Bool.false_eq_true, if_false, ih (i + 1) (by omega)]

theorem run_countIfLoopT (pred : T → Bool) (a : Sl) (n i c : Nat) (h : i + n = a.len) (m : Mem T) :
    (countIfLoopT pred a n i c).run m = .ok (countIfLoop pred ((a.read m).drop i) c) m := by
  induction n generalizing i c with
  | zero => rw [List.drop_eq_nil_of_le (by simp; omega)]; rfl
  | succ n ih =>
    rw [Sl.read_drop a m i (by omega)]
    simp only [countIfLoopT, countIfLoop, Thread.bind_eq, Thread.run_bind, run_getT, GoM.bind_def, Sl.get_ok a m i (by omega), Thread.run_ite, Sl.read_getElem]
    by_cases e : pred (m.cell (a.off + i)) = true
    · simp only [e, if_true, ih (i + 1) _ (by omega)]
    · simp only [e, Bool.false_eq_true, if_false, ih (i + 1) _ (by omega)]

theorem run_lowerBoundFuncLoopT (a : Sl) (x : T) (less : T → T → Bool) (fuel loc count : Nat) (m : Mem T) :
    (lowerBoundFuncLoopT a x less fuel loc count).run m =
      match lowerBoundFuncLoop (a.read m) x less fuel loc count with
      | .ret n => .ok n m
      | .panic => .panic m
      | .diverge => .diverge := by
  induction fuel generalizing loc count with
  | zero => rfl
  | succ fuel ih =>
    simp only [lowerBoundFuncLoopT, lowerBoundFuncLoop, Thread.run_ite]
    by_cases hc : count > 0
    · rw [if_pos hc, if_pos hc]
      simp only [Thread.bind_eq, Thread.run_bind, run_getT, GoM.bind_def]
      by_cases hb : loc + count / 2 < a.len
      · rw [Sl.get_ok a m _ hb, idx_of_lt (by simpa using hb), Outcome.ret_bind]
        simp only [Thread.run_ite, Sl.read_getElem]
        by_cases e : less (m.cell (a.off + (loc + count / 2))) x = true
        · rw [if_pos e, if_pos e, ih]
        · rw [if_neg e, if_neg e, ih]
      · rw [Sl.get_panic a m _ (by omega)]
        have : idx (a.read m) (loc + count / 2) = .panic := by
          rw [idx, List.getElem?_eq_none (by simpa using hb)]
        rw [this]; rfl
    · rw [if_neg hc, if_neg hc]; rfl

/-- A goroutine on its own does what the call does. -/
theorem SliceCall.run_thread [GoEq T] [GoZero T] (c : SliceCall T) : c.thread.run = c.call := by
  cases c with
  | fill a v => simp only [SliceCall.thread, SliceCall.call, Thread.bind_eq, Thread.run_bind, run_fillT]; rfl
  | fillPattern a p => simp only [SliceCall.thread, SliceCall.call, Thread.bind_eq, Thread.run_bind, run_fillPatternT]; rfl
  | fillZero a => simp only [SliceCall.thread, SliceCall.call, Thread.bind_eq, Thread.run_bind, run_fillZeroT]; rfl
  | transform a op => simp only [SliceCall.thread, SliceCall.call, Thread.bind_eq, Thread.run_bind, transformT, run_transformLoopT]; rfl
  | replace a old new => simp only [SliceCall.thread, SliceCall.call, Thread.bind_eq, Thread.run_bind, replaceT, run_replaceLoopT]; rfl
  | unique a => simp only [SliceCall.thread, SliceCall.call, Thread.bind_eq, Thread.run_bind, run_uniqueT]; rfl
  | removeIf a cond =>
    funext m
    simp only [SliceCall.thread, SliceCall.call, Thread.bind_eq, Thread.run_bind, removeIfT, Stl4go.removeIf, GoM.bind_def, run_removeIfLoopT, run_sliceT]
    cases (removeIfLoopT a cond a.len 0 0).run m with
    | ok j m1 => simp only; cases (a.slice 0 (j : Int) m1 : Res (Mem T) Sl) <;> rfl
    | panic m1 => rfl
    | diverge => rfl
  | reverse a => simp only [SliceCall.thread, SliceCall.call, Thread.bind_eq, Thread.run_bind, reverseT, run_reverseLoopT]; rfl
  | sort alg a less => simp only [SliceCall.thread, SliceCall.call, Thread.bind_eq, Thread.run_bind, sortFuncT, run_sortProgT]; rfl
  | makeHeap a less =>
    funext m
    simp only [SliceCall.thread, SliceCall.call, Thread.bind_eq, Thread.run_bind, makeHeapFuncT, makeHeapFuncM, makeHeapFuncLoopM_run, HS.on, GoM.bind_def]
    cases (makeHeapFuncLoopT less a a.len (a.len / 2)).run m <;> rfl
  | find a x =>
    funext m
    simp only [SliceCall.thread, SliceCall.call, Thread.bind_eq, Thread.run_bind, findT, GoM.bind_def, run_findLoopT x a a.len 0 (by omega), List.drop_zero]; rfl
  | countIf a pred =>
    funext m
    simp only [SliceCall.thread, SliceCall.call, Thread.bind_eq, Thread.run_bind, countIfT, GoM.bind_def, run_countIfLoopT pred a a.len 0 0 (by omega), List.drop_zero]; rfl
  | lowerBound a x less =>
    funext m
    simp only [SliceCall.thread, SliceCall.call, Thread.bind_eq, Thread.run_bind, lowerBoundFuncT, GoM.bind_def, run_lowerBoundFuncLoopT, lowerBoundFunc, Sl.read_length]
    cases lowerBoundFuncLoop (a.read m) x less (a.len + 1) 0 a.len <;> rfl

/-! ## Within their slices -/

theorem getT_within {a : Sl} {R W : Nat → Prop} (h : ∀ p, a.Cell p → R p) (i : Int) : (a.getT i : Thread T T).Within R W := by
  unfold Sl.getT
  by_cases hi : 0 ≤ i ∧ i < a.len
  · rw [if_pos hi]; exact ⟨h _ ⟨by omega, by omega⟩, fun v => trivial⟩
  · rw [if_neg hi]; trivial

theorem putT_within {a : Sl} {R W : Nat → Prop} (h : ∀ p, a.Cell p → W p) (i : Int) (v : T) : (a.putT i v).Within R W := by
  unfold Sl.putT
  by_cases hi : 0 ≤ i ∧ i < a.len
  · rw [if_pos hi]; exact ⟨h _ ⟨by omega, by omega⟩, trivial⟩
  · rw [if_neg hi]; trivial

/-- After `s[lo:hi]`, with the slice it gave. -/
theorem sliceT_within {a : Sl} {R W : Nat → Prop} {lo hi : Int} {f : Sl → Thread T α}
    (hf : ∀ b : Sl, (∀ p, b.Cell p → hi ≤ a.len → a.Cell p) → (f b).Within R W) : ((a.sliceT lo hi).bind f).Within R W := by
  unfold Sl.sliceT
  by_cases h : 0 ≤ lo ∧ lo ≤ hi ∧ hi ≤ a.cap
  · rw [if_pos h]
    refine hf _ (fun p hp he => ?_)
    obtain ⟨h1, h2⟩ := hp
    simp only at h1 h2
    exact ⟨by omega, by omega⟩
  · rw [if_neg h]; trivial

theorem sliceT_last {a : Sl} {R W : Nat → Prop} (lo hi : Int) : (a.sliceT lo hi : Thread T Sl).Within R W := by
  unfold Sl.sliceT
  by_cases h : 0 ≤ lo ∧ lo ≤ hi ∧ hi ≤ a.cap
  · rw [if_pos h]; trivial
  · rw [if_neg h]; trivial

theorem loadsT_within {R W : Nat → Prop} (p n : Nat) (h : ∀ k, k < n → R (p + k)) : (loadsT p n : Thread T (List T)).Within R W := by
  induction n generalizing p with
  | zero => trivial
  | succ n ih =>
    refine ⟨h 0 (by omega), fun v => Thread.Within.bind (ih (p + 1) (fun k hk => ?_)) (fun vs => trivial)⟩
    have := h (k + 1) (by omega)
    rwa [show p + 1 + k = p + (k + 1) by omega]

theorem storesT_within {R W : Nat → Prop} (p : Nat) (xs : List T) (h : ∀ k, k < xs.length → W (p + k)) : (storesT p xs).Within R W := by
  induction xs generalizing p with
  | nil => trivial
  | cons x xs ih =>
    refine ⟨h 0 (by simp), ih (p + 1) (fun k hk => ?_)⟩
    have := h (k + 1) (by simp; omega)
    rwa [show p + 1 + k = p + (k + 1) by omega]

theorem Thread.bind_assoc {γ : Type} (x : Thread T α) (f : α → Thread T β) (g : β → Thread T γ) : (x.bind f).bind g = x.bind (fun a => (f a).bind g) := by
  induction x with
  | ret a => rfl
  | panic => rfl
  | diverge => rfl
  | load p k ih => show Thread.load p _ = Thread.load p _; congr 1; funext v; exact ih v
  | store p v k ih => show Thread.store p v _ = Thread.store p v _; congr 1

/-- `loadsT` gives as many as it was asked for. -/
theorem loadsT_then {R W : Nat → Prop} (p n : Nat) (h : ∀ k, k < n → R (p + k)) {f : List T → Thread T α} (hf : ∀ xs, xs.length = n → (f xs).Within R W) :
    ((loadsT p n).bind f).Within R W := by
  induction n generalizing p f with
  | zero => exact hf [] rfl
  | succ n ih =>
    refine ⟨h 0 (by omega), fun v => ?_⟩
    show (((loadsT (p + 1) n).bind (fun vs => .ret (v :: vs))).bind f).Within R W
    rw [Thread.bind_assoc]
    refine ih (p + 1) (fun k hk => ?_) (fun xs hx => hf (v :: xs) (by simp [hx]))
    have := h (k + 1) (by omega)
    rwa [show p + 1 + k = p + (k + 1) by omega]

theorem copyT_within {R W : Nat → Prop} {dst src : Sl} (hd : ∀ p, dst.Cell p → W p) (hs : ∀ p, src.Cell p → R p) : (dst.copyT src : Thread T Unit).Within R W := by
  refine loadsT_then _ _ (fun k hk => hs _ ⟨by omega, by omega⟩) (fun xs hx => storesT_within _ _ (fun k hk => hd _ ⟨by omega, by omega⟩))

section
variable {a : Sl} {R W : Nat → Prop} (hR : ∀ p, a.Cell p → R p) (hW : ∀ p, a.Cell p → W p)
include hR hW

theorem fillLoopT_within (fuel : Nat) (j : Int) : (fillLoopT a fuel j : Thread T Unit).Within R W := by
  induction fuel generalizing j with
  | zero => trivial
  | succ fuel ih =>
    unfold fillLoopT
    by_cases h : j < a.len
    · rw [if_pos h]
      refine sliceT_within (fun d hd => sliceT_within (fun s hs => ?_))
      exact Thread.Within.bind (copyT_within (fun p hp => hW p (hd p hp (by omega))) (fun p hp => hR p (hs p hp (by omega)))) (fun _ => ih _)
    · rw [if_neg h]; trivial

theorem transformLoopT_within (op : T → T) (n i : Nat) : (transformLoopT a op n i).Within R W := by
  induction n generalizing i with
  | zero => trivial
  | succ n ih => exact (getT_within hR _).bind (fun v => (putT_within hW _ _).bind (fun _ => ih _))

theorem replaceLoopT_within [GoEq T] (old new : T) (n i : Nat) : (replaceLoopT a old new n i).Within R W := by
  induction n generalizing i with
  | zero => trivial
  | succ n ih =>
    refine (getT_within hR _).bind (fun v => ?_)
    by_cases h : GoEq.eq v old = true
    · rw [if_pos h]; exact (putT_within hW _ _).bind (fun _ => ih _)
    · rw [if_neg h]; exact ih _

omit hR in
theorem uniqueLoopT_within [GoEq T] {b : Sl} (hb : ∀ p, b.Cell p → R p) (n k i : Nat) (prev : T) : (uniqueLoopT a b n k i prev).Within R W := by
  induction n generalizing k i prev with
  | zero => trivial
  | succ n ih =>
    refine (getT_within hb _).bind (fun v => ?_)
    by_cases h : GoEq.eq v prev = false
    · rw [if_pos h]; exact (putT_within hW _ _).bind (fun _ => ih _ _ _)
    · rw [if_neg h]; exact ih _ _ _

theorem uniqueT_within [GoEq T] : (uniqueT a : Thread T Sl).Within R W := by
  unfold uniqueT
  by_cases h : a.len = 0
  · rw [if_pos h]; trivial
  · rw [if_neg h]
    exact (getT_within hR _).bind (fun v => sliceT_within (fun b hb =>
      (uniqueLoopT_within hW (fun p hp => hR p (hb p hp (by omega))) _ _ _ _).bind (fun i => sliceT_last _ _)))

theorem removeIfLoopT_within (cond : T → Bool) (n k j : Nat) : (removeIfLoopT a cond n k j).Within R W := by
  induction n generalizing k j with
  | zero => trivial
  | succ n ih =>
    refine (getT_within hR _).bind (fun v => ?_)
    by_cases h : cond v = false
    · rw [if_pos h]; exact (putT_within hW _ _).bind (fun _ => ih _ _)
    · rw [if_neg h]; exact ih _ _

theorem swapT_within (i j : Int) : (swapT a i j : Thread T Unit).Within R W :=
  (getT_within hR _).bind (fun _ => (getT_within hR _).bind (fun _ => (putT_within hW _ _).bind (fun _ => putT_within hW _ _)))

theorem reverseLoopT_within (fuel : Nat) (i j : Int) : (reverseLoopT a fuel i j : Thread T Unit).Within R W := by
  induction fuel generalizing i j with
  | zero => trivial
  | succ fuel ih =>
    unfold reverseLoopT
    by_cases h : i < j
    · rw [if_pos h]; exact (swapT_within hR hW _ _).bind (fun _ => ih _ _)
    · rw [if_neg h]; trivial

theorem sortProgT_within (less : T → T → Bool) (x : SortProg) : (sortProgT a less x).Within R W := by
  induction x with
  | done => trivial
  | less i j k ih => exact (getT_within hR _).bind (fun _ => (getT_within hR _).bind (fun _ => ih _))
  | swap i j k ih => exact (swapT_within hR hW _ _).bind (fun _ => ih)

theorem heapDownFuncLoopT_within (less : T → T → Bool) (fuel i n : Nat) : (heapDownFuncLoopT less fuel a i n).Within R W := by
  induction fuel generalizing i with
  | zero => trivial
  | succ fuel ih =>
    unfold heapDownFuncLoopT
    by_cases h : 2 * i + 1 ≥ n
    · rw [if_pos h]; trivial
    · rw [if_neg h]
      refine Thread.Within.bind ?_ (fun j => (getT_within hR _).bind (fun x => (getT_within hR _).bind (fun y => ?_)))
      · unfold heapSmallerChildFuncT
        by_cases h2 : 2 * i + 1 + 1 < n
        · rw [if_pos h2]; exact (getT_within hR _).bind (fun _ => (getT_within hR _).bind (fun _ => trivial))
        · rw [if_neg h2]; trivial
      · by_cases h3 : (!(less x y)) = true
        · rw [if_pos h3]; trivial
        · rw [if_neg h3]; exact (swapT_within hR hW _ _).bind (fun _ => ih _)

theorem makeHeapFuncLoopT_within (less : T → T → Bool) (n i : Nat) : (makeHeapFuncLoopT less a n i).Within R W := by
  induction i with
  | zero => trivial
  | succ i ih => exact (heapDownFuncLoopT_within hR hW less _ _ _).bind (fun _ => ih)

end

section
variable {a : Sl} {R W : Nat → Prop} (hR : ∀ p, a.Cell p → R p)
include hR

theorem findLoopT_within [GoEq T] (x : T) (n i : Nat) : (findLoopT x a n i).Within R W := by
  induction n generalizing i with
  | zero => trivial
  | succ n ih =>
    refine (getT_within hR _).bind (fun v => ?_)
    by_cases h : GoEq.eq v x = true
    · rw [if_pos h]; trivial
    · rw [if_neg h]; exact ih _

theorem countIfLoopT_within (pred : T → Bool) (n i c : Nat) : (countIfLoopT pred a n i c).Within R W := by
  induction n generalizing i c with
  | zero => trivial
  | succ n ih =>
    refine (getT_within hR _).bind (fun v => ?_)
    by_cases h : pred v = true
    · rw [if_pos h]; exact ih _ _
    · rw [if_neg h]; exact ih _ _

theorem lowerBoundFuncLoopT_within (x : T) (less : T → T → Bool) (fuel loc count : Nat) : (lowerBoundFuncLoopT a x less fuel loc count).Within R W := by
  induction fuel generalizing loc count with
  | zero => trivial
  | succ fuel ih =>
    unfold lowerBoundFuncLoopT
    by_cases h : count > 0
    · rw [if_pos h]
      refine (getT_within hR _).bind (fun v => ?_)
      by_cases h2 : less v x = true
      · rw [if_pos h2]; exact ih _ _
      · rw [if_neg h2]; exact ih _ _
    · rw [if_neg h]; trivial

end

/-- A call accesses no other elements than those it is given. -/
theorem SliceCall.within [GoEq T] [GoZero T] (c : SliceCall T) : c.thread.Within c.sees c.changes := by
  cases c with
  | fill a v =>
    refine Thread.Within.bind ?_ (fun _ => trivial)
    unfold fillT
    by_cases h : a.len = 0
    · rw [if_pos h]; trivial
    · rw [if_neg h]; exact (putT_within (fun p h => h) _ _).bind (fun _ => fillLoopT_within (fun p h => h) (fun p h => h) _ _)
  | fillPattern a b =>
    refine Thread.Within.bind ?_ (fun _ => trivial)
    unfold fillPatternT
    by_cases h : b.len = 0
    · rw [if_pos h]; trivial
    · rw [if_neg h]
      exact (copyT_within (fun p h => h) (fun p h => Or.inr h)).bind (fun _ => fillLoopT_within (fun p h => Or.inl h) (fun p h => h) _ _)
  | fillZero a =>
    refine Thread.Within.bind (storesT_within _ _ (fun k hk => ?_)) (fun _ => trivial)
    simp only [List.length_replicate] at hk
    exact ⟨by omega, by omega⟩
  | transform a op => exact (transformLoopT_within (fun p h => h) (fun p h => h) _ _ _).bind (fun _ => trivial)
  | replace a old new => exact (replaceLoopT_within (fun p h => h) (fun p h => h) _ _ _ _).bind (fun _ => trivial)
  | unique a => exact (uniqueT_within (fun p h => h) (fun p h => h)).bind (fun _ => trivial)
  | removeIf a cond =>
    exact ((removeIfLoopT_within (fun p h => h) (fun p h => h) _ _ _ _).bind (fun _ => sliceT_last _ _)).bind (fun _ => trivial)
  | reverse a => exact (reverseLoopT_within (fun p h => h) (fun p h => h) _ _ _).bind (fun _ => trivial)
  | sort alg a less => exact (sortProgT_within (fun p h => h) (fun p h => h) _ _).bind (fun _ => trivial)
  | makeHeap a less => exact (makeHeapFuncLoopT_within (fun p h => h) (fun p h => h) _ _ _).bind (fun _ => trivial)
  | find a x => exact (findLoopT_within (fun p h => h) _ _ _).bind (fun _ => trivial)
  | countIf a pred => exact (countIfLoopT_within (fun p h => h) _ _ _ _).bind (fun _ => trivial)
  | lowerBound a x less => exact (lowerBoundFuncLoopT_within (fun p h => h) _ _ _ _ _).bind (fun _ => trivial)

theorem SliceCall.own (c : SliceCall T) (p : Nat) (h : c.changes p) : c.sees p := by
  cases c <;> first | exact h | exact Or.inl h | exact h.elim

theorem CallsApart.separate [GoEq T] [GoZero T] {cs : Nat → SliceCall T} (h : CallsApart cs) :
    Separate (fun i => (cs i).thread) (fun i => (cs i).sees) (fun i => (cs i).changes) :=
  ⟨fun i => (cs i).within, h, fun i => (cs i).own⟩

/-! ## Complete schedules -/

/-- After its last access a goroutine does nothing. -/
theorem Thread.alone_add (x : Thread T α) (m : Mem T) (n k : Nat) : x.alone (n + k) m = (x.alone n m).1.alone k (x.alone n m).2 := by
  induction n generalizing x m with
  | zero => rw [Nat.zero_add]; rfl
  | succ n ih => rw [Nat.succ_add]; exact ih _ _

theorem Thread.alone_enough (x : Thread T α) (m : Mem T) (n : Nat) (hn : x.steps m ≤ n) : x.alone n m = x.alone (x.steps m) m := by
  obtain ⟨k, rfl⟩ : ∃ k, n = x.steps m + k := ⟨n - x.steps m, by omega⟩
  rw [Thread.alone_add, Thread.alone_ended k (x.alone_run m _ (Nat.le_refl _)).1]

/-- If it has ended, it has ended as alone. -/
theorem Thread.alone_ended_run (x : Thread T α) (m : Mem T) (n : Nat) {o : Outcome α} (h : (x.alone n m).1.ended = some o) :
    o = (x.run m).outcome ∧ x.alone n m = x.alone (x.steps m) m := by
  have e : x.alone (n + x.steps m) m = x.alone n m := by rw [Thread.alone_add, Thread.alone_ended _ h]
  have h2 := x.alone_enough m (n + x.steps m) (by omega)
  refine ⟨?_, by rw [← e, h2]⟩
  have := (x.alone_run m (n + x.steps m) (by omega)).1
  rw [e, h] at this
  exact Option.some.inj this

theorem transform_cell (a : Sl) (op : T → T) (m : Mem T) : ∃ m',
    transform a (fun (_ : Unit) v => ((), op v)) () m = .ok () m' ∧ ∀ p, (a.Cell p → m'.cell p = op (m.cell p)) ∧ (¬ a.Cell p → m'.cell p = m.cell p) := by
  refine ⟨_, transform_eq a _ m (), fun p => ⟨fun h => ?_, fun h => ?_⟩⟩
  · obtain ⟨h1, h2⟩ := h
    obtain ⟨k, rfl⟩ : ∃ k, p = a.off + k := ⟨p - a.off, by omega⟩
    rw [mapS_map, Mem.write_in _ _ _ k (by simp; omega)]
    simp [Sl.read_getElem]
  · rw [mapS_map]
    apply Mem.write_out
    simp only [List.length_map, Sl.read_length]
    by_cases h1 : a.off ≤ p
    · exact Or.inr (Nat.le_of_not_lt (fun h2 => h ⟨h1, h2⟩))
    · exact Or.inl (by omega)

end Stl4go
