import Verif.Proofs.ReadOnly
import Verif.Spec.SkipListM
/-!
# C153: methods that only look

Every theorem is about all states, also those that no sequence of calls leads to. The ordered searches of a skip list, the heap tests and
the slice functions of `lookup.go` without a callback are functions from their arguments to a result in this model: they have no state to
write.
-/
namespace Stl4go
variable {σ τ ρ α T K V : Type}

/-- C153: methods of `Vector` and its iterators. -/
theorem C153_vector :
    OnlyLooks id (Vec.isEmpty : GoM (VS T) Bool) ∧ OnlyLooks id (Vec.len : GoM (VS T) Int) ∧ OnlyLooks id (Vec.cap : GoM (VS T) Int) ∧
    (∀ i, OnlyLooks id (Vec.at i : GoM (VS T) T)) ∧ OnlyLooks id (Vec.back : GoM (VS T) T) ∧
    (∀ (cb : σ → T → σ) t, OnlyLooks id (Vec.forEach cb t)) ∧ (∀ (cb : σ → T → σ × Bool) t, OnlyLooks id (Vec.forEachIf cb t)) ∧
    OnlyLooks id (Vec.iterate : GoM (VS T) VIter) ∧ (∀ i j, OnlyLooks id (Vec.iterateRange i j : GoM (VS T) VIter)) ∧
    (∀ it : VIter, OnlyLooks id (it.value : GoM (Mem T) T)) ∧ (∀ fuel (it : VIter), OnlyLooks id (it.collect fuel : GoM (Mem T) (List T))) :=
  ⟨fun _ => rfl, fun _ => rfl, fun _ => rfl, fun _ => OnlyLooks.bind VS.recv_leaves (fun _ => VS.on_leaves (Sl.get_leaves _ _)),
    OnlyLooks.bind VS.recv_leaves (fun _ => VS.on_leaves (Sl.get_leaves _ _)),
    fun cb t => OnlyLooks.bind VS.recv_leaves (fun _ => VS.on_leaves (Vec.forEachLoop_leaves _ cb _ _ t)),
    fun cb t => OnlyLooks.bind VS.recv_leaves (fun _ => VS.on_leaves (Vec.forEachIfLoop_leaves _ cb _ _ t)),
    fun _ => rfl, fun _ _ => OnlyLooks.bind VS.recv_leaves (fun _ => OnlyLooks.bind (VS.on_leaves (Sl.slice_leaves _ _ _)) (fun _ => OnlyLooks.pure _)),
    fun _ => Sl.get_leaves _ _, fun fuel it => VIter.collect_leaves fuel it⟩

/-- C153: methods of `Stack` and `PriorityQueue`. -/
theorem C153_stack_queue :
    OnlyLooks id (Stk.isEmpty : GoM (VS T) Bool) ∧ OnlyLooks id (Stk.len : GoM (VS T) Int) ∧ OnlyLooks id (Stk.cap : GoM (VS T) Int) ∧
    OnlyLooks id (Stk.top : GoM (VS T) T) ∧ OnlyLooks id (PQM.len : GoM (HS T τ) Nat) ∧ OnlyLooks id (PQM.isEmpty : GoM (HS T τ) Bool) ∧
    OnlyLooks id (PQM.top : GoM (HS T τ) T) := by
  refine ⟨fun _ => rfl, fun _ => rfl, fun _ => rfl, ?_, fun _ => rfl, fun _ => rfl, ?_⟩
  · refine OnlyLooks.bind VS.recv_leaves (fun _ => ?_)
    exact VS.on_leaves (Sl.get_leaves _ _)
  · exact OnlyLooks.bind (fun _ => rfl) (fun _ => HS.on_leaves (Sl.get_leaves _ _))

/-- C153: methods of `DList`, its iterators and `DListQueue`. -/
theorem C153_dlist :
    OnlyLooks id (DL.len : GoM (DS T) Int) ∧ OnlyLooks id (DL.isEmpty : GoM (DS T) Bool) ∧ OnlyLooks id (DL.front : GoM (DS T) T) ∧
    OnlyLooks id (DL.back : GoM (DS T) T) ∧ (∀ (cb : σ → T → σ) t, OnlyLooks id (DL.forEach cb t)) ∧
    (∀ (cb : σ → T → σ × Bool) t, OnlyLooks id (DL.forEachIf cb t)) ∧ OnlyLooks id (DL.iterate : GoM (DS T) DIter) ∧
    (∀ it : DIter, OnlyLooks id (it.isNotEnd : GoM (DS T) Bool) ∧ OnlyLooks id (it.moveToNext : GoM (DS T) DIter) ∧
      OnlyLooks id (it.value : GoM (DS T) T)) ∧
    (∀ fuel (it : DIter), OnlyLooks id (it.collect fuel : GoM (DS T) (List T))) ∧
    OnlyLooks id (DQ.len : GoM (DS T) Int) ∧ OnlyLooks id (DQ.isEmpty : GoM (DS T) Bool) ∧ OnlyLooks id (DQ.front : GoM (DS T) T) ∧
    OnlyLooks id (DQ.back : GoM (DS T) T) := by
  have hf : OnlyLooks id (DL.front : GoM (DS T) T) := OnlyLooks.bind DL.isEmpty_leaves (fun _ => OnlyLooks.ite OnlyLooks.panic
    (OnlyLooks.bind OnlyLooks.get (fun _ => OnlyLooks.bind (DS.load_leaves _) (fun _ => OnlyLooks.bind (DS.load_leaves _) (fun _ => OnlyLooks.pure _)))))
  have hb : OnlyLooks id (DL.back : GoM (DS T) T) := OnlyLooks.bind DL.isEmpty_leaves (fun _ => OnlyLooks.ite OnlyLooks.panic
    (OnlyLooks.bind OnlyLooks.get (fun _ => OnlyLooks.bind (DS.load_leaves _) (fun _ => OnlyLooks.bind (DS.load_leaves _) (fun _ => OnlyLooks.pure _)))))
  exact ⟨fun _ => rfl, DL.isEmpty_leaves, hf, hb,
    fun cb _ => OnlyLooks.bind DL.isEmpty_leaves (fun _ => OnlyLooks.ite (OnlyLooks.pure _) (OnlyLooks.bind OnlyLooks.get (fun _ =>
      OnlyLooks.bind (DS.load_leaves _) (fun _ => DL.forEachLoop_leaves cb _ _ _)))),
    fun cb _ => OnlyLooks.bind DL.isEmpty_leaves (fun _ => OnlyLooks.ite (OnlyLooks.pure _) (OnlyLooks.bind OnlyLooks.get (fun _ =>
      OnlyLooks.bind (DS.load_leaves _) (fun _ => DL.forEachIfLoop_leaves cb _ _ _)))),
    OnlyLooks.bind OnlyLooks.get (fun _ => OnlyLooks.ite (OnlyLooks.bind (DS.load_leaves _) (fun _ => OnlyLooks.pure _)) (OnlyLooks.pure _)),
    fun _ => ⟨fun _ => rfl, OnlyLooks.bind (DS.load_leaves _) (fun _ => OnlyLooks.pure _), OnlyLooks.bind (DS.load_leaves _) (fun _ => OnlyLooks.pure _)⟩,
    DIter.collect_leaves, fun _ => rfl, DL.isEmpty_leaves, hf, hb⟩

/-- C153: methods of `SList` and its iterators; `Values` writes only the slice it returns. -/
theorem C153_slist [GoZero T] :
    OnlyLooks id (LL.len : GoM (LS T) Int) ∧ OnlyLooks id (LL.isEmpty : GoM (LS T) Bool) ∧ OnlyLooks id (LL.front : GoM (LS T) T) ∧
    OnlyLooks id (LL.back : GoM (LS T) T) ∧ OnlyLooks id (LL.values : GoM (LS T) (List T)) ∧
    (∀ (cb : σ → T → σ) t, OnlyLooks id (LL.forEach cb t)) ∧ (∀ (cb : σ → T → σ × Bool) t, OnlyLooks id (LL.forEachIf cb t)) ∧
    OnlyLooks id (LL.iterate : GoM (LS T) LIter) ∧
    (∀ it : LIter, OnlyLooks id (it.moveToNext : GoM (LS T) LIter) ∧ OnlyLooks id (it.value : GoM (LS T) T)) ∧
    (∀ fuel (it : LIter), OnlyLooks id (it.collect fuel : GoM (LS T) (List T))) :=
  ⟨fun _ => rfl, fun _ => rfl,
    OnlyLooks.bind (fun _ => rfl) (fun _ => OnlyLooks.ite OnlyLooks.panic (OnlyLooks.bind OnlyLooks.get (fun _ => OnlyLooks.bind (LS.load_leaves _) (fun _ => OnlyLooks.pure _)))),
    OnlyLooks.bind (fun _ => rfl) (fun _ => OnlyLooks.ite OnlyLooks.panic (OnlyLooks.bind OnlyLooks.get (fun _ => OnlyLooks.bind (LS.load_leaves _) (fun _ => OnlyLooks.pure _)))),
    OnlyLooks.bind (fun _ => rfl) (fun _ => OnlyLooks.ite OnlyLooks.panic (OnlyLooks.bind OnlyLooks.get (fun _ => LL.valuesLoop_leaves _ _ _ _))),
    fun cb _ => OnlyLooks.bind OnlyLooks.get (fun _ => LL.forEachLoop_leaves cb _ _ _),
    fun cb _ => OnlyLooks.bind OnlyLooks.get (fun _ => LL.forEachIfLoop_leaves cb _ _ _),
    fun _ => rfl,
    fun _ => ⟨OnlyLooks.bind (LS.load_leaves _) (fun _ => OnlyLooks.pure _), OnlyLooks.bind (LS.load_leaves _) (fun _ => OnlyLooks.pure _)⟩,
    LIter.collect_leaves⟩

/-- C153: methods of a `SkipList` with a compare function that does not use the list: whatever that function does, the list stays as it is,
with its scratch array. -/
theorem C153_skiplist (cmp : CmpM K τ) (key last : K) :
    OnlyLooks SLS.sl (SLM.find cmp key : GoM (SLS K V τ) (Option Nat)) ∧ OnlyLooks SLS.sl (SLM.has cmp key : GoM (SLS K V τ) Bool) ∧
    OnlyLooks SLS.sl (SLM.lowerBoundIter cmp key : GoM (SLS K V τ) SLIter) ∧ OnlyLooks SLS.sl (SLM.upperBoundIter cmp key : GoM (SLS K V τ) SLIter) ∧
    OnlyLooks SLS.sl (SLM.findRange cmp key last : GoM (SLS K V τ) SLIter) :=
  ⟨SLM.findNode_leaves cmp key, OnlyLooks.bind (SLM.findNode_leaves cmp key) (fun _ => OnlyLooks.pure _),
    OnlyLooks.bind (SLM.lowerBound_leaves cmp key) (fun _ => OnlyLooks.pure _), OnlyLooks.bind (SLM.upperBound_leaves cmp key) (fun _ => OnlyLooks.pure _),
    OnlyLooks.bind (SLM.lowerBound_leaves cmp key) (fun _ => OnlyLooks.bind (SLM.upperBound_leaves cmp last) (fun _ => OnlyLooks.pure _))⟩

/-- C153: methods of `BuiltinSet`: no map changes, none is made. -/
theorem C153_set [GoEq K] (rt : MapRt K) (s other : MRef) :
    (∀ k : K, OnlyLooks MWorld.allMaps (bsHas s k)) ∧ OnlyLooks MWorld.allMaps (bsLen s : GoM (MWorld K) Int) ∧
    OnlyLooks MWorld.allMaps (bsIsEmpty s : GoM (MWorld K) Bool) ∧ OnlyLooks MWorld.allMaps (bsKeys rt s) ∧
    (∀ (cb : σ → K → σ) t, OnlyLooks MWorld.allMaps (bsForEach rt s cb t)) ∧
    (∀ (cb : σ → K → σ × Bool) t, OnlyLooks MWorld.allMaps (bsForEachIf rt s cb t)) ∧
    (∀ name shows, OnlyLooks MWorld.allMaps (bsString rt name shows s)) ∧
    OnlyLooks MWorld.allMaps (bsIsDisjointOf rt s other) ∧ OnlyLooks MWorld.allMaps (bsIsSubsetOf rt s other) ∧
    OnlyLooks MWorld.allMaps (bsIsSupersetOf rt s other) :=
  ⟨fun k => mapHas_leaves s k, mapLen_leaves s, OnlyLooks.bind (mapLen_leaves s) (fun _ => OnlyLooks.pure _),
    OnlyLooks.bind (mapRange_leaves rt s) (fun _ => OnlyLooks.pure _), fun _ _ => OnlyLooks.bind (mapRange_leaves rt s) (fun _ => OnlyLooks.pure _),
    fun _ _ => OnlyLooks.bind (mapRange_leaves rt s) (fun _ => OnlyLooks.pure _),
    fun name _ => OnlyLooks.bind (nameOfTypeM_leaves name) (fun _ => OnlyLooks.bind (OnlyLooks.bind (mapRange_leaves rt s) (fun _ => OnlyLooks.pure _))
      (fun _ => OnlyLooks.pure _)),
    OnlyLooks.bind (orderSet_leaves s other) (fun _ => OnlyLooks.bind (mapRange_leaves rt _) (fun _ => disjointLoop_leaves _ _)),
    bsIsSubsetOf_leaves rt s other, bsIsSubsetOf_leaves rt other s⟩

/-- C153: functions with a callback write nothing but what their callback writes. -/
theorem C153_callbacks (a : Sl) {cond : T → GoM (CS T ρ) Bool} (h : ∀ v, OnlyLooks CS.mem (cond v))
    {less : T → T → GoM (CS T ρ) Bool} (hl : ∀ x y, OnlyLooks CS.mem (less x y)) (value : T) :
    OnlyLooks CS.mem (findIfC a cond) ∧ OnlyLooks CS.mem (allOfC a cond) ∧ OnlyLooks CS.mem (anyOfC a cond) ∧ OnlyLooks CS.mem (noneOfC a cond) ∧
    OnlyLooks CS.mem (countIfC a cond) ∧ OnlyLooks CS.mem (lowerBoundFuncE a value less) ∧ OnlyLooks CS.mem (upperBoundFuncE a value less) ∧
    OnlyLooks CS.mem (binarySearchFuncE a value less) :=
  ⟨findIfLoopC_leaves a h _ _, allOfLoopC_leaves a h _ _, anyOfLoopC_leaves a h _ _,
    OnlyLooks.bind (anyOfLoopC_leaves a h _ _) (fun _ => OnlyLooks.pure _), countIfLoopC_leaves a h _ _ _,
    lowerBoundFuncLoopE_leaves a value hl _ _ _, upperBoundFuncLoopE_leaves a value hl _ _ _,
    OnlyLooks.bind (lowerBoundFuncLoopE_leaves a value hl _ _ _) (fun _ => OnlyLooks.ite (OnlyLooks.bind (CS.on_leaves (Sl.get_leaves _ _))
      (fun _ => OnlyLooks.bind (hl _ _) (fun _ => OnlyLooks.ite (OnlyLooks.pure _) (OnlyLooks.pure _)))) (OnlyLooks.pure _))⟩

/-- C153: when goroutines only look, the order in which their calls take place does not matter: each gets the answers it would get if it were
alone, and nothing has changed at the end. -/
theorem C153_goroutines (cs : List (Nat × GoM σ α)) (s : σ) (h : ∀ c ∈ cs, OnlyLooks id c.2) :
    (serve cs s).2 = s ∧ ∀ g, ofGoroutine g (serve cs s).1 = (ofGoroutine g cs).map (fun x => answerOf (x s)) := by
  rw [serve_leaves cs s h]
  refine ⟨rfl, fun g => ?_⟩
  simp only [ofGoroutine, List.filter_map, List.map_map]
  rfl

/-! ## A method that looks harmless but writes -/

/-- A skip list with the key 1 and nothing in its scratch array. -/
def lookList : SL Nat Nat :=
  { level := 1, len := 1, headNext := some 0 :: List.replicate 39 none, prevsCache := List.replicate 40 none,
    nodes := [{ key := 1, value := 10, next := [none] }] }

/-- The compare function of the examples; it has no state. -/
def lookCmp (a b : Nat) : GoM Unit Int := pure ((a : Int) - b)

/-- C153: `Remove` is not among them even if the key is absent: it answers `false` and the map is what it was, but it has written to the
scratch array of the list. So goroutines that only call `Remove` with absent keys need a lock. -/
theorem C153_remove_writes : ¬ ∀ (s : SLS Nat Nat Unit) (k : Nat),
    (∀ n ∈ s.sl.nodes, n.key ≠ k) → (stateOf s (SLM.remove lookCmp k s)).sl = s.sl := by
  intro h
  have := h ⟨lookList, ()⟩ 2 (by decide)
  exact absurd this (by decide +kernel)

example : answerOf (SLM.remove lookCmp 2 ⟨lookList, ()⟩) = .ret false := by decide +kernel
example : (stateOf ⟨lookList, ()⟩ (SLM.remove lookCmp 2 ⟨lookList, ()⟩)).sl.nodes = lookList.nodes := by decide +kernel
example : answerOf (SLM.has lookCmp 1 ⟨lookList, ()⟩) = .ret true := by decide +kernel

/-! ## A concrete case of `C153_goroutines`: goroutine 0 asks for both ends, goroutine 1 looks at an iterator that is out of the list -/

/-- A list with the elements 5, 6. -/
def lookDList : DS Nat :=
  { heap := [{ value := 0, prev := some 2, next := some 1 }, { value := 5, prev := some 0, next := some 2 },
      { value := 6, prev := some 1, next := some 0 }], l := { head := some 0, length := 2 } }

/-- Five calls. -/
def lookCalls : List (Nat × GoM (DS Nat) Nat) :=
  [(0, DL.front), (1, DIter.value ⟨none⟩), (0, DL.back), (1, DIter.value ⟨some 2⟩), (1, DL.front)]

example : ∀ c ∈ lookCalls, OnlyLooks id c.2 := by
  have h := C153_dlist (T := Nat) (σ := Unit)
  intro c hc
  simp only [lookCalls, List.mem_cons, List.not_mem_nil, or_false] at hc
  rcases hc with rfl | rfl | rfl | rfl | rfl
  · exact h.2.2.1
  · exact (h.2.2.2.2.2.2.2.1 _).2.2
  · exact h.2.2.2.1
  · exact (h.2.2.2.2.2.2.2.1 _).2.2
  · exact h.2.2.1

example : ofGoroutine 1 (serve lookCalls lookDList).1 = [.panic, .ret 6, .ret 5] := by decide +kernel
example : ofGoroutine 0 (serve lookCalls lookDList).1 = [.ret 5, .ret 6] := by decide +kernel

end Stl4go
