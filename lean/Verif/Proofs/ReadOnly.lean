import Verif.Spec.ReadOnly
import Verif.Model.Vector
import Verif.Model.Stack
import Verif.Model.HeapMem
import Verif.Model.DListQueue
import Verif.Model.SList
import Verif.Model.SkipListM
import Verif.Model.Strings
import Verif.Model.Callback
/-!
# Helper lemmas for C153
-/
namespace Stl4go
variable {σ τ ρ α β γ T K V : Type}

theorem OnlyLooks.pure {obs : σ → γ} (a : α) : OnlyLooks obs (pure a : GoM σ α) := fun _ => rfl
theorem OnlyLooks.panic {obs : σ → γ} : OnlyLooks obs (GoM.panic : GoM σ α) := fun _ => rfl
theorem OnlyLooks.diverge {obs : σ → γ} : OnlyLooks obs (GoM.diverge : GoM σ α) := fun _ => trivial
theorem OnlyLooks.get {obs : σ → γ} : OnlyLooks obs (GoM.get : GoM σ σ) := fun _ => rfl

theorem OnlyLooks.bind {obs : σ → γ} {x : GoM σ α} {f : α → GoM σ β} (hx : OnlyLooks obs x) (hf : ∀ a, OnlyLooks obs (f a)) :
    OnlyLooks obs (x >>= f) := by
  intro s
  have h := hx s
  rw [GoM.bind_def]
  cases hs : x s with
  | ok a s' =>
    rw [hs] at h
    have h2 := hf a s'
    dsimp only at h h2 ⊢
    cases hs2 : f a s' with
    | ok b s2 => rw [hs2] at h2; exact h2.trans h
    | panic s2 => rw [hs2] at h2; exact h2.trans h
    | diverge => trivial
  | panic s' => rw [hs] at h; exact h
  | diverge => trivial

theorem OnlyLooks.ite {obs : σ → γ} {p : Prop} [Decidable p] {x y : GoM σ α} (hx : OnlyLooks obs x) (hy : OnlyLooks obs y) :
    OnlyLooks obs (if p then x else y) := by
  split
  · exact hx
  · exact hy

/-! ## Slices and vectors -/

theorem Sl.get_leaves (s : Sl) (i : Int) : OnlyLooks id (s.get i : GoM (Mem T) T) := by
  intro m
  rw [Sl.get]
  by_cases h : 0 ≤ i ∧ i < s.len
  · rw [if_pos h]
  · rw [if_neg h]

theorem Sl.slice_leaves (s : Sl) (lo hi : Int) : OnlyLooks id (s.slice lo hi : GoM (Mem T) Sl) := by
  intro m
  rw [Sl.slice]
  by_cases h : 0 ≤ lo ∧ lo ≤ hi ∧ hi ≤ s.cap
  · rw [if_pos h]
  · rw [if_neg h]

theorem VS.recv_leaves : OnlyLooks id (VS.recv : GoM (VS T) Sl) := fun _ => rfl

theorem VS.on_leaves {x : GoM (Mem T) α} (h : OnlyLooks id x) : OnlyLooks id (VS.on x) := by
  intro s
  have := h s.mem
  rw [VS.on]
  cases hx : x s.mem with
  | ok a m => rw [hx] at this; cases this; rfl
  | panic m => rw [hx] at this; cases this; rfl
  | diverge => trivial

theorem HS.on_leaves {x : GoM (Mem T) α} (h : OnlyLooks id x) : OnlyLooks id (HS.on x : GoM (HS T τ) α) := by
  intro s
  have := h s.mem
  rw [HS.on]
  cases hx : x s.mem with
  | ok a m => rw [hx] at this; cases this; rfl
  | panic m => rw [hx] at this; cases this; rfl
  | diverge => trivial

theorem CS.on_leaves {x : GoM (Mem T) α} (h : OnlyLooks id x) : OnlyLooks CS.mem (CS.on x : GoM (CS T ρ) α) := by
  intro s
  have := h s.mem
  rw [CS.on]
  cases hx : x s.mem with
  | ok a m => rw [hx] at this; exact this
  | panic m => rw [hx] at this; exact this
  | diverge => trivial

theorem Vec.forEachLoop_leaves (v : Sl) (cb : σ → T → σ) : ∀ (n i : Nat) (t : σ), OnlyLooks id (Vec.forEachLoop v cb n i t)
  | 0, _, _ => OnlyLooks.pure _
  | n + 1, i, _ => OnlyLooks.bind (Sl.get_leaves _ _) (fun _ => Vec.forEachLoop_leaves v cb n (i + 1) _)

theorem Vec.forEachIfLoop_leaves (v : Sl) (cb : σ → T → σ × Bool) : ∀ (n i : Nat) (t : σ), OnlyLooks id (Vec.forEachIfLoop v cb n i t)
  | 0, _, _ => OnlyLooks.pure _
  | n + 1, i, _ => OnlyLooks.bind (Sl.get_leaves _ _) (fun _ => OnlyLooks.ite (OnlyLooks.pure _) (Vec.forEachIfLoop_leaves v cb n (i + 1) _))

theorem VIter.collect_leaves : ∀ (fuel : Nat) (it : VIter), OnlyLooks id (VIter.collect fuel it : GoM (Mem T) (List T))
  | 0, _ => OnlyLooks.diverge
  | fuel + 1, it => by
    rw [VIter.collect]
    exact OnlyLooks.ite (OnlyLooks.bind (Sl.get_leaves _ _) (fun _ => OnlyLooks.bind (VIter.collect_leaves fuel _) (fun _ => OnlyLooks.pure _)))
      (OnlyLooks.pure _)

/-! ## Linked lists -/

theorem DS.load_leaves (p : Option Nat) : OnlyLooks id (DS.load p : GoM (DS T) (DNode T)) := by
  intro s
  cases p with
  | none => rfl
  | some p =>
    simp only [DS.load]
    cases s.heap[p]? with
    | none => rfl
    | some n => rfl

theorem DL.isEmpty_leaves : OnlyLooks id (DL.isEmpty : GoM (DS T) Bool) := fun _ => rfl

theorem DIter.collect_leaves : ∀ (fuel : Nat) (it : DIter), OnlyLooks id (DIter.collect fuel it : GoM (DS T) (List T))
  | 0, _ => OnlyLooks.diverge
  | fuel + 1, it => by
    rw [DIter.collect]
    refine OnlyLooks.bind (fun _ => rfl) (fun _ => OnlyLooks.ite ?_ (OnlyLooks.pure _))
    refine OnlyLooks.bind (OnlyLooks.bind (DS.load_leaves _) (fun _ => OnlyLooks.pure _)) (fun _ => ?_)
    refine OnlyLooks.bind (OnlyLooks.bind (DS.load_leaves _) (fun _ => OnlyLooks.pure _)) (fun _ => ?_)
    exact OnlyLooks.bind (DIter.collect_leaves fuel _) (fun _ => OnlyLooks.pure _)

theorem DL.forEachLoop_leaves (cb : σ → T → σ) : ∀ (fuel : Nat) (n : Option Nat) (t : σ), OnlyLooks id (DL.forEachLoop cb fuel n t)
  | 0, _, _ => OnlyLooks.diverge
  | fuel + 1, n, t => by
    rw [DL.forEachLoop]
    refine OnlyLooks.bind OnlyLooks.get (fun _ => OnlyLooks.ite ?_ (OnlyLooks.pure _))
    exact OnlyLooks.bind (DS.load_leaves _) (fun _ => OnlyLooks.bind (DS.load_leaves _) (fun _ => DL.forEachLoop_leaves cb fuel _ _))

theorem DL.forEachIfLoop_leaves (cb : σ → T → σ × Bool) : ∀ (fuel : Nat) (n : Option Nat) (t : σ),
    OnlyLooks id (DL.forEachIfLoop cb fuel n t)
  | 0, _, _ => OnlyLooks.diverge
  | fuel + 1, n, t => by
    rw [DL.forEachIfLoop]
    refine OnlyLooks.bind OnlyLooks.get (fun _ => OnlyLooks.ite ?_ (OnlyLooks.pure _))
    refine OnlyLooks.bind (DS.load_leaves _) (fun _ => OnlyLooks.ite (OnlyLooks.pure _) ?_)
    exact OnlyLooks.bind (DS.load_leaves _) (fun _ => DL.forEachIfLoop_leaves cb fuel _ _)

theorem LS.load_leaves (p : Option Nat) : OnlyLooks id (LS.load p : GoM (LS T) (LNode T)) := by
  intro s
  cases p with
  | none => rfl
  | some p =>
    simp only [LS.load]
    cases s.heap[p]? with
    | none => rfl
    | some n => rfl

theorem LL.valuesLoop_leaves : ∀ (fuel : Nat) (node : Option Nat) (i : Nat) (l : List T), OnlyLooks id (LL.valuesLoop fuel node i l)
  | 0, _, _, _ => OnlyLooks.diverge
  | fuel + 1, node, i, l => by
    rw [LL.valuesLoop]
    refine OnlyLooks.ite (OnlyLooks.pure _) (OnlyLooks.bind (LS.load_leaves _) (fun _ => OnlyLooks.ite ?_ OnlyLooks.panic))
    exact LL.valuesLoop_leaves fuel _ _ _

theorem LIter.collect_leaves : ∀ (fuel : Nat) (it : LIter), OnlyLooks id (LIter.collect fuel it : GoM (LS T) (List T))
  | 0, _ => OnlyLooks.diverge
  | fuel + 1, it => by
    rw [LIter.collect]
    refine OnlyLooks.ite ?_ (OnlyLooks.pure _)
    refine OnlyLooks.bind (OnlyLooks.bind (LS.load_leaves _) (fun _ => OnlyLooks.pure _)) (fun _ => ?_)
    refine OnlyLooks.bind (OnlyLooks.bind (LS.load_leaves _) (fun _ => OnlyLooks.pure _)) (fun _ => ?_)
    exact OnlyLooks.bind (LIter.collect_leaves fuel _) (fun _ => OnlyLooks.pure _)

theorem LL.forEachLoop_leaves (cb : σ → T → σ) : ∀ (fuel : Nat) (n : Option Nat) (t : σ), OnlyLooks id (LL.forEachLoop cb fuel n t)
  | 0, _, _ => OnlyLooks.diverge
  | fuel + 1, n, t => by
    rw [LL.forEachLoop]
    refine OnlyLooks.ite (OnlyLooks.pure _) ?_
    exact OnlyLooks.bind (LS.load_leaves _) (fun _ => OnlyLooks.bind (LS.load_leaves _) (fun _ => LL.forEachLoop_leaves cb fuel _ _))

theorem LL.forEachIfLoop_leaves (cb : σ → T → σ × Bool) : ∀ (fuel : Nat) (n : Option Nat) (t : σ),
    OnlyLooks id (LL.forEachIfLoop cb fuel n t)
  | 0, _, _ => OnlyLooks.diverge
  | fuel + 1, n, t => by
    rw [LL.forEachIfLoop]
    refine OnlyLooks.ite (OnlyLooks.pure _) ?_
    refine OnlyLooks.bind (LS.load_leaves _) (fun _ => OnlyLooks.ite (OnlyLooks.pure _) ?_)
    exact OnlyLooks.bind (LS.load_leaves _) (fun _ => LL.forEachIfLoop_leaves cb fuel _ _)

/-! ## Skip lists -/

theorem SLS.read_leaves (f : SL K V → Outcome α) : OnlyLooks SLS.sl (SLS.read f : GoM (SLS K V τ) α) := by
  intro s
  rw [SLS.read]
  cases f s.sl with
  | ret a => rfl
  | panic => rfl
  | diverge => trivial

theorem SLS.call_leaves (x : GoM τ α) : OnlyLooks SLS.sl (SLS.call x : GoM (SLS K V τ) α) := by
  intro s
  rw [SLS.call]
  cases x s.st with
  | ok a t => rfl
  | panic t => rfl
  | diverge => trivial

theorem SLM.lowerBoundInner_leaves (cmp : CmpM K τ) (key : K) (i : Nat) : ∀ (fuel : Nat) (prev : Ref) (cur : Option Nat),
    OnlyLooks SLS.sl (SLM.lowerBoundInner cmp key i fuel prev cur : GoM (SLS K V τ) (Nat ⊕ Ref))
  | 0, _, _ => OnlyLooks.diverge
  | _ + 1, _, none => OnlyLooks.pure _
  | fuel + 1, prev, some cur => by
    rw [SLM.lowerBoundInner]
    refine OnlyLooks.bind (SLS.read_leaves _) (fun _ => OnlyLooks.bind (SLS.call_leaves _) (fun _ => ?_))
    refine OnlyLooks.ite (OnlyLooks.pure _) (OnlyLooks.ite (OnlyLooks.pure _) ?_)
    exact OnlyLooks.bind (SLS.read_leaves _) (fun _ => SLM.lowerBoundInner_leaves cmp key i fuel _ _)

theorem SLM.lowerBoundOuter_leaves (cmp : CmpM K τ) (key : K) (n : Nat) : ∀ (i : Nat) (prev : Ref),
    OnlyLooks SLS.sl (SLM.lowerBoundOuter cmp key n i prev : GoM (SLS K V τ) (Nat ⊕ Ref))
  | 0, _ => OnlyLooks.pure _
  | i + 1, prev => by
    rw [SLM.lowerBoundOuter]
    refine OnlyLooks.bind (SLS.read_leaves _) (fun _ => OnlyLooks.bind (SLM.lowerBoundInner_leaves cmp key i _ _ _) (fun r => ?_))
    cases r with
    | inl p => exact OnlyLooks.pure _
    | inr prev => exact SLM.lowerBoundOuter_leaves cmp key n i prev

theorem SLM.lowerBound_leaves (cmp : CmpM K τ) (key : K) : OnlyLooks SLS.sl (SLM.lowerBound cmp key : GoM (SLS K V τ) (Option Nat)) := by
  refine OnlyLooks.bind (SLS.read_leaves _) (fun _ => OnlyLooks.bind (SLM.lowerBoundOuter_leaves cmp key _ _ _) (fun r => ?_))
  cases r with
  | inl p => exact OnlyLooks.pure _
  | inr prev => exact SLS.read_leaves _

theorem SLM.findNode_leaves (cmp : CmpM K τ) (key : K) : OnlyLooks SLS.sl (SLM.findNode cmp key : GoM (SLS K V τ) (Option Nat)) := by
  refine OnlyLooks.bind (SLM.lowerBound_leaves cmp key) (fun r => ?_)
  cases r with
  | none => exact OnlyLooks.pure _
  | some p =>
    exact OnlyLooks.bind (SLS.read_leaves _) (fun _ => OnlyLooks.bind (SLS.call_leaves _) (fun _ => OnlyLooks.ite (OnlyLooks.pure _) (OnlyLooks.pure _)))

theorem SLM.upperBound_leaves (cmp : CmpM K τ) (key : K) : OnlyLooks SLS.sl (SLM.upperBound cmp key : GoM (SLS K V τ) (Option Nat)) := by
  refine OnlyLooks.bind (SLM.lowerBound_leaves cmp key) (fun r => ?_)
  cases r with
  | none => exact OnlyLooks.pure _
  | some p =>
    exact OnlyLooks.bind (SLS.read_leaves _) (fun _ => OnlyLooks.bind (SLS.call_leaves _)
      (fun _ => OnlyLooks.ite (SLS.read_leaves _) (OnlyLooks.pure _)))

/-! ## Sets -/

/-- All the maps there are. -/
def MWorld.allMaps (w : MWorld K) : (Nat → List K) × Nat := (w.maps, w.next)

theorem mapRange_leaves (rt : MapRt K) (s : MRef) : OnlyLooks MWorld.allMaps (mapRange rt s) := fun _ => rfl
theorem mapLen_leaves (s : MRef) : OnlyLooks MWorld.allMaps (mapLen s : GoM (MWorld K) Int) := fun _ => rfl
theorem mapHas_leaves [GoEq K] (s : MRef) (k : K) : OnlyLooks MWorld.allMaps (mapHas s k) := fun _ => rfl

theorem nameOfTypeM_leaves (p : List Char) : OnlyLooks MWorld.allMaps (nameOfTypeM p : GoM (MWorld K) (List Char)) := by
  intro w
  rw [nameOfTypeM]
  cases nameOfType p with
  | ret a => rfl
  | panic => rfl
  | diverge => trivial

theorem orderSet_leaves (a b : MRef) : OnlyLooks MWorld.allMaps (orderSet a b : GoM (MWorld K) (MRef × MRef)) :=
  OnlyLooks.bind (mapLen_leaves a) (fun _ => OnlyLooks.bind (mapLen_leaves b) (fun _ => OnlyLooks.ite (OnlyLooks.pure _) (OnlyLooks.pure _)))

theorem disjointLoop_leaves [GoEq K] (large : MRef) : ∀ ks : List K, OnlyLooks MWorld.allMaps (disjointLoop large ks)
  | [] => OnlyLooks.pure _
  | _ :: ks => OnlyLooks.bind (mapHas_leaves _ _) (fun _ => OnlyLooks.ite (OnlyLooks.pure _) (disjointLoop_leaves large ks))

theorem subsetLoop_leaves [GoEq K] (other : MRef) : ∀ ks : List K, OnlyLooks MWorld.allMaps (subsetLoop other ks)
  | [] => OnlyLooks.pure _
  | _ :: ks => OnlyLooks.bind (mapHas_leaves _ _) (fun _ => OnlyLooks.ite (OnlyLooks.pure _) (subsetLoop_leaves other ks))

theorem bsIsSubsetOf_leaves [GoEq K] (rt : MapRt K) (s other : MRef) : OnlyLooks MWorld.allMaps (bsIsSubsetOf rt s other) :=
  OnlyLooks.bind (mapLen_leaves _) (fun _ => OnlyLooks.bind (mapLen_leaves _) (fun _ => OnlyLooks.ite (OnlyLooks.pure _)
    (OnlyLooks.bind (mapRange_leaves _ _) (fun _ => subsetLoop_leaves _ _))))

/-! ## Functions with a callback -/

theorem findIfLoopC_leaves (a : Sl) {cond : T → GoM (CS T ρ) Bool} (h : ∀ v, OnlyLooks CS.mem (cond v)) :
    ∀ n i : Nat, OnlyLooks CS.mem (findIfLoopC a cond n i)
  | 0, _ => OnlyLooks.pure _
  | n + 1, i => OnlyLooks.bind (CS.on_leaves (Sl.get_leaves _ _)) (fun _ => OnlyLooks.bind (h _) (fun _ =>
      OnlyLooks.ite (OnlyLooks.pure _) (findIfLoopC_leaves a h n (i + 1))))

theorem allOfLoopC_leaves (a : Sl) {pred : T → GoM (CS T ρ) Bool} (h : ∀ v, OnlyLooks CS.mem (pred v)) :
    ∀ n i : Nat, OnlyLooks CS.mem (allOfLoopC a pred n i)
  | 0, _ => OnlyLooks.pure _
  | n + 1, i => OnlyLooks.bind (CS.on_leaves (Sl.get_leaves _ _)) (fun _ => OnlyLooks.bind (h _) (fun _ =>
      OnlyLooks.ite (OnlyLooks.pure _) (allOfLoopC_leaves a h n (i + 1))))

theorem anyOfLoopC_leaves (a : Sl) {pred : T → GoM (CS T ρ) Bool} (h : ∀ v, OnlyLooks CS.mem (pred v)) :
    ∀ n i : Nat, OnlyLooks CS.mem (anyOfLoopC a pred n i)
  | 0, _ => OnlyLooks.pure _
  | n + 1, i => OnlyLooks.bind (CS.on_leaves (Sl.get_leaves _ _)) (fun _ => OnlyLooks.bind (h _) (fun _ =>
      OnlyLooks.ite (OnlyLooks.pure _) (anyOfLoopC_leaves a h n (i + 1))))

theorem countIfLoopC_leaves (a : Sl) {pred : T → GoM (CS T ρ) Bool} (h : ∀ v, OnlyLooks CS.mem (pred v)) :
    ∀ n i c : Nat, OnlyLooks CS.mem (countIfLoopC a pred n i c)
  | 0, _, _ => OnlyLooks.pure _
  | n + 1, i, c => by
    rw [countIfLoopC]
    refine OnlyLooks.bind (CS.on_leaves (Sl.get_leaves _ _)) (fun _ => OnlyLooks.bind (h _) (fun _ => ?_))
    first
      | exact countIfLoopC_leaves a h n (i + 1) _
      | exact OnlyLooks.ite (countIfLoopC_leaves a h n (i + 1) _) (countIfLoopC_leaves a h n (i + 1) _)

theorem lowerBoundFuncLoopE_leaves (a : Sl) (value : T) {less : T → T → GoM (CS T ρ) Bool} (h : ∀ x y, OnlyLooks CS.mem (less x y)) :
    ∀ fuel loc count : Nat, OnlyLooks CS.mem (lowerBoundFuncLoopE a value less fuel loc count)
  | 0, _, _ => OnlyLooks.diverge
  | fuel + 1, loc, count => by
    rw [lowerBoundFuncLoopE]
    refine OnlyLooks.ite ?_ (OnlyLooks.pure _)
    exact OnlyLooks.bind (CS.on_leaves (Sl.get_leaves _ _)) (fun _ => OnlyLooks.bind (h _ _) (fun _ =>
      OnlyLooks.ite (lowerBoundFuncLoopE_leaves a value h fuel _ _) (lowerBoundFuncLoopE_leaves a value h fuel _ _)))

theorem upperBoundFuncLoopE_leaves (a : Sl) (value : T) {less : T → T → GoM (CS T ρ) Bool} (h : ∀ x y, OnlyLooks CS.mem (less x y)) :
    ∀ fuel loc count : Nat, OnlyLooks CS.mem (upperBoundFuncLoopE a value less fuel loc count)
  | 0, _, _ => OnlyLooks.diverge
  | fuel + 1, loc, count => by
    rw [upperBoundFuncLoopE]
    refine OnlyLooks.ite ?_ (OnlyLooks.pure _)
    exact OnlyLooks.bind (CS.on_leaves (Sl.get_leaves _ _)) (fun _ => OnlyLooks.bind (h _ _) (fun _ =>
      OnlyLooks.ite (upperBoundFuncLoopE_leaves a value h fuel _ _) (upperBoundFuncLoopE_leaves a value h fuel _ _)))

/-! ## Goroutines -/

theorem OnlyLooks.stateOf {x : GoM σ α} (h : OnlyLooks id x) (s : σ) : Stl4go.stateOf s (x s) = s := by
  have := h s
  cases hx : x s with
  | ok a s' => rw [hx] at this; exact this
  | panic s' => rw [hx] at this; exact this
  | diverge => rfl

theorem serve_leaves : ∀ (cs : List (Nat × GoM σ α)) (s : σ), (∀ c ∈ cs, OnlyLooks id c.2) →
    serve cs s = (cs.map (fun c => (c.1, answerOf (c.2 s))), s)
  | [], s, _ => rfl
  | c :: cs, s, h => by
    rw [serve, (h c List.mem_cons_self).stateOf s, serve_leaves cs s (fun d hd => h d (List.mem_cons_of_mem _ hd))]
    rfl

end Stl4go
