import Verif.Spec.Allocates
/-! # What the functions of the model allocate -/
namespace Stl4go
variable {σ α β T R ρ τ K V : Type}

theorem Makes.pure {μ : σ → Nat} (a : α) : Makes μ 0 (Pure.pure a : GoM σ α) := fun _ => rfl
theorem Makes.panic {μ : σ → Nat} {k : Nat} : Makes μ k (GoM.panic : GoM σ α) := fun _ => ⟨Nat.le_refl _, Nat.le_add_right _ _⟩
theorem Makes.diverge {μ : σ → Nat} {k : Nat} : Makes μ k (GoM.diverge : GoM σ α) := fun _ => trivial
theorem Makes.get {μ : σ → Nat} : Makes μ 0 (GoM.get : GoM σ σ) := fun _ => rfl
theorem Makes.modify {μ : σ → Nat} {f : σ → σ} (h : ∀ s, μ (f s) = μ s) : Makes μ 0 (GoM.modify f) := fun s => h s

theorem MakesFrom.bind {μ : σ → Nat} {j k : Nat} {s : σ} {x : GoM σ α} {f : α → GoM σ β} (h : MakesFrom μ j s (x s)) (hf : ∀ a s', x s = .ok a s' → MakesFrom μ k s' (f a s')) :
    MakesFrom μ (j + k) s ((x >>= f) s) := by
  rw [GoM.bind_def]
  cases hx : x s with
  | diverge => trivial
  | panic s' => rw [hx] at h; exact ⟨h.1, by have := h.2; omega⟩
  | ok a s' =>
    rw [hx] at h
    have h' : μ s' = μ s + j := h
    have := hf a s' hx
    show MakesFrom μ (j + k) s (f a s')
    cases hy : f a s' with
    | diverge => trivial
    | panic s2 => rw [hy] at this; exact ⟨by have := this.1; omega, by have := this.2; omega⟩
    | ok b s2 => rw [hy] at this; show μ s2 = _; have h2 : μ s2 = μ s' + k := this; omega

theorem Makes.bind {μ : σ → Nat} {x : GoM σ α} {f : α → GoM σ β} (h : Makes μ 0 x) (hf : ∀ a, Makes μ 0 (f a)) : Makes μ 0 (x >>= f) :=
  fun s => MakesFrom.bind (h s) (fun a s' _ => hf a s')


theorem MakesFrom.zero_add {μ : σ → Nat} {k : Nat} {s : σ} {r : Res σ α} (h : MakesFrom μ (0 + k) s r) : MakesFrom μ k s r := by rwa [Nat.zero_add] at h

/-! ## Slices -/

theorem Sl.get_makes (a : Sl) (i : Int) : Makes memTop 0 (a.get i : GoM (Mem T) T) := fun m => by
  unfold Sl.get; split
  · rfl
  · exact ⟨Nat.le_refl _, Nat.le_refl _⟩
theorem Sl.put_makes (a : Sl) (i : Int) (v : T) : Makes memTop 0 (a.put i v) := fun m => by
  unfold Sl.put; split
  · rfl
  · exact ⟨Nat.le_refl _, Nat.le_refl _⟩
theorem Sl.slice_makes (a : Sl) (i j : Int) : Makes memTop 0 (a.slice i j : GoM (Mem T) Sl) := fun m => by
  unfold Sl.slice; split
  · rfl
  · exact ⟨Nat.le_refl _, Nat.le_refl _⟩
theorem Sl.load_makes (a : Sl) : Makes memTop 0 (a.load : GoM (Mem T) (List T)) := fun _ => rfl
theorem Sl.copy_makes (a b : Sl) : Makes memTop 0 (a.copy b : GoM (Mem T) Unit) := fun _ => rfl
theorem Sl.clear_makes [GoZero T] (a : Sl) : Makes memTop 0 (a.clear : GoM (Mem T) Unit) := fun _ => rfl
theorem Sl.addr_makes (a : Sl) (i : Int) : Makes memTop 0 (a.addr i : GoM (Mem T) Nat) := fun m => by
  unfold Sl.addr; split
  · rfl
  · exact ⟨Nat.le_refl _, Nat.le_refl _⟩
theorem Sl.make_makes [GoZero T] (n c : Int) : Makes memTop c.toNat (Sl.make n c : GoM (Mem T) Sl) := fun m => by
  unfold Sl.make; split
  · show m.top + _ = _; rw [List.length_replicate]
  · exact ⟨Nat.le_refl _, Nat.le_add_right _ _⟩
theorem Sl.append_makes_room [GoZero T] (grow : Nat → Nat → Nat) (a : Sl) (ys : List T) (h : a.len + ys.length ≤ a.cap) : Makes memTop 0 (a.append grow ys) := fun m => by
  unfold Sl.append; simp only [if_pos h]; rfl
theorem Sl.read_length' (a : Sl) (m : Mem T) : (a.read m).length = a.len := by simp [Sl.read]
theorem Sl.append_makes_new [GoZero T] (grow : Nat → Nat → Nat) (a : Sl) (ys : List T) (h : ¬ a.len + ys.length ≤ a.cap) :
    Makes memTop (max (a.len + ys.length) (grow a.cap (a.len + ys.length))) (a.append grow ys) := fun m => by
  unfold Sl.append; simp only [if_neg h]
  show m.top + _ = _
  simp only [List.length_append, Sl.read_length', List.length_replicate]
  show m.top + _ = m.top + _
  omega

theorem fillLoop_makes (a : Sl) : ∀ (n : Nat) (j : Int), Makes memTop 0 (fillLoop a n j : GoM (Mem T) Unit)
  | 0, _ => Makes.diverge
  | n + 1, j => by
    unfold fillLoop
    have : Makes memTop 0 (fillLoop a n (wrap64 (j * 2)) : GoM (Mem T) Unit) := fillLoop_makes a n _
    split
    · exact (Sl.slice_makes _ _ _).bind fun d => (Sl.slice_makes _ _ _).bind fun s => (Sl.copy_makes _ _).bind fun _ => this
    · exact Makes.pure _

theorem fill_makes (a : Sl) (v : T) : Makes memTop 0 (fill a v) := by
  unfold fill; split
  · exact Makes.pure _
  · exact (Sl.put_makes _ _ _).bind fun _ => fillLoop_makes _ _ _

theorem fillPattern_makes (a p : Sl) : Makes memTop 0 (fillPattern a p : GoM (Mem T) Unit) := by
  unfold fillPattern; split
  · exact Makes.panic
  · exact (Sl.copy_makes _ _).bind fun _ => fillLoop_makes _ _ _

theorem replaceLoop_makes [GoEq T] (a : Sl) (old new : T) : ∀ n i, Makes memTop 0 (replaceLoop a old new n i)
  | 0, _ => Makes.pure _
  | n + 1, i => by
    have := replaceLoop_makes a old new n (i + 1)
    unfold replaceLoop
    refine (Sl.get_makes _ _).bind fun v => ?_
    split
    · exact (Sl.put_makes _ _ _).bind fun _ => this
    · exact this

theorem uniqueLoop_makes [GoEq T] (a b : Sl) : ∀ n k i (prev : T), Makes memTop 0 (uniqueLoop a b n k i prev)
  | 0, _, _, _ => Makes.pure _
  | n + 1, k, i, prev => by
    unfold uniqueLoop
    refine (Sl.get_makes _ _).bind fun v => ?_
    split
    · exact (Sl.put_makes _ _ _).bind fun _ => uniqueLoop_makes _ _ _ _ _ _
    · exact uniqueLoop_makes _ _ _ _ _ _

theorem unique_makes [GoEq T] (a : Sl) : Makes memTop 0 (unique a : GoM (Mem T) Sl) := by
  unfold unique; split
  · exact Makes.pure _
  · exact (Sl.get_makes _ _).bind fun p => (Sl.slice_makes _ _ _).bind fun b => (uniqueLoop_makes _ _ _ _ _ _).bind fun i => Sl.slice_makes _ _ _

theorem removeLoop_makes [GoEq T] (a : Sl) (x : T) : ∀ n k j, Makes memTop 0 (removeLoop a x n k j)
  | 0, _, _ => Makes.pure _
  | n + 1, k, j => by
    unfold removeLoop
    refine (Sl.get_makes _ _).bind fun v => ?_
    split
    · exact (Sl.put_makes _ _ _).bind fun _ => removeLoop_makes _ _ _ _ _
    · exact removeLoop_makes _ _ _ _ _

theorem swapAt_makes (a : Sl) (i j : Int) : Makes memTop 0 (swapAt a i j : GoM (Mem T) Unit) :=
  (Sl.get_makes _ _).bind fun _ => (Sl.get_makes _ _).bind fun _ => (Sl.put_makes _ _ _).bind fun _ => Sl.put_makes _ _ _

theorem shuffle_makes (a : Sl) : ∀ d, Makes memTop 0 (shuffle a d : GoM (Mem T) Unit)
  | [] => Makes.pure _
  | (i, j) :: d => (swapAt_makes a i j).bind fun _ => shuffle_makes a d

theorem reverseLoop_makes (a : Sl) : ∀ n (i j : Int), Makes memTop 0 (reverseLoop a n i j : GoM (Mem T) Unit)
  | 0, _, _ => Makes.diverge
  | n + 1, i, j => by
    unfold reverseLoop
    split
    · exact (swapAt_makes _ _ _).bind fun _ => reverseLoop_makes _ _ _ _
    · exact Makes.pure _

theorem SortProg.run_makes {μ : σ → Nat} (x : SortIface σ) (hl : ∀ i j, Makes μ 0 (x.less i j)) (hs : ∀ i j, Makes μ 0 (x.swap i j)) : ∀ p : SortProg, Makes μ 0 (p.run x)
  | .done => Makes.pure _
  | .less i j k => (hl i j).bind fun b => (k b).run_makes x hl hs
  | .swap i j k => (hs i j).bind fun _ => k.run_makes x hl hs

theorem sortSwap_makes (a : Sl) (i j : Nat) : Makes memTop 0 (sortSwap a i j : GoM (Mem T) Unit) :=
  (Sl.get_makes _ _).bind fun _ => (Sl.get_makes _ _).bind fun _ => (Sl.put_makes _ _ _).bind fun _ => Sl.put_makes _ _ _

theorem goSort_makes {μ : σ → Nat} (sort : Nat → SortProg) (x : SortIface σ) (h0 : Makes μ 0 x.len) (hl : ∀ i j, Makes μ 0 (x.less i j)) (hs : ∀ i j, Makes μ 0 (x.swap i j)) :
    Makes μ 0 (goSort sort x) := h0.bind fun _ => SortProg.run_makes x hl hs _

theorem ascSlice_makes [GoOrd T] (sort : Nat → SortProg) (a : Sl) : Makes memTop 0 (goSort sort (ascSlice a) : GoM (Mem T) Unit) :=
  goSort_makes _ _ (Makes.pure _) (fun _ _ => (Sl.get_makes _ _).bind fun _ => (Sl.get_makes _ _).bind fun _ => Makes.pure _) (fun _ _ => sortSwap_makes _ _ _)
theorem descSlice_makes [GoOrd T] (sort : Nat → SortProg) (a : Sl) : Makes memTop 0 (goSort sort (descSlice a) : GoM (Mem T) Unit) :=
  goSort_makes _ _ (Makes.pure _) (fun _ _ => (Sl.get_makes _ _).bind fun _ => (Sl.get_makes _ _).bind fun _ => Makes.pure _) (fun _ _ => sortSwap_makes _ _ _)

/-! ## Copies -/

/-- Appending one element within the capacity, and what it gives. -/
theorem append_one [GoZero T] (grow : Nat → Nat → Nat) (r : Sl) (v : T) (m : Mem T) (h : r.len < r.cap) :
    r.append grow [v] m = .ok { r with len := r.len + 1 } (m.write (r.off + r.len) [v]) := by
  unfold Sl.append; simp only [List.length_cons, List.length_nil, Nat.zero_add]; rw [if_pos (by omega)]

theorem reverseCopyLoop_makes [GoZero T] (grow : Nat → Nat → Nat) (a : Sl) : ∀ n (r : Sl), r.len + n ≤ r.cap → Makes memTop 0 (reverseCopyLoop grow a n r : GoM (Mem T) Sl)
  | 0, _, _ => Makes.pure _
  | n + 1, r, h => by
    unfold reverseCopyLoop
    refine (Sl.get_makes _ _).bind fun v => fun m => ?_
    refine MakesFrom.bind (j := 0) (k := 0) (Sl.append_makes_room grow r [v] (by simp only [List.length_cons, List.length_nil]; omega) m) (fun b s' hb => ?_)
    rw [append_one grow r v m (by omega)] at hb
    injection hb with h1 h2
    subst h1 h2
    exact reverseCopyLoop_makes grow a n _ (by show r.len + 1 + n ≤ r.cap; omega) _

theorem removeCopyLoop_makes [GoEq T] [GoZero T] (grow : Nat → Nat → Nat) (a : Sl) (x : T) : ∀ n k (r : Sl), r.len + n ≤ r.cap → Makes memTop 0 (removeCopyLoop grow a x n k r)
  | 0, _, _, _ => Makes.pure _
  | n + 1, k, r, h => by
    unfold removeCopyLoop
    refine (Sl.get_makes _ _).bind fun v => ?_
    split
    · intro m
      refine MakesFrom.bind (j := 0) (k := 0) (Sl.append_makes_room grow r [v] (by simp only [List.length_cons, List.length_nil]; omega) m) (fun b s' hb => ?_)
      rw [append_one grow r v m (by omega)] at hb
      injection hb with h1 h2
      subst h1 h2
      exact removeCopyLoop_makes grow a x n _ _ (by show r.len + 1 + n ≤ r.cap; omega) _
    · exact removeCopyLoop_makes grow a x n _ _ (by omega)

theorem MakesFrom.make_bind [GoZero T] {k : Nat} {f : Sl → GoM (Mem T) β} {c : Nat} (hf : ∀ r : Sl, r.len = 0 → r.cap = c → Makes memTop k (f r)) :
    Makes memTop (c + k) (Sl.make 0 (c : Int) >>= f) := fun m => by
  refine MakesFrom.bind (j := c) (Sl.make_makes 0 (c : Int) m) (fun r s' hr => ?_)
  refine hf r ?_ ?_ s' <;> · unfold Sl.make at hr; rw [if_pos (by omega)] at hr; injection hr with h1 h2; subst h1; rfl

/-! ## Callbacks -/

theorem CS.on_makes {x : GoM (Mem T) α} {k : Nat} (h : Makes memTop k x) : Makes csTop k (CS.on x : GoM (CS T ρ) α) := fun s => by
  have := h s.mem
  unfold CS.on
  cases hx : x s.mem <;> rw [hx] at this <;> exact this

section
variable {p : T → GoM (CS T ρ) Bool} (hp : ∀ v, Makes csTop 0 (p v)) (a : Sl)
include hp

theorem findIfLoopC_makes : ∀ n i, Makes csTop 0 (findIfLoopC a p n i)
  | 0, _ => Makes.pure _
  | n + 1, i => by
    unfold findIfLoopC
    refine (CS.on_makes (Sl.get_makes _ _)).bind fun v => (hp v).bind fun b => ?_
    split
    · exact Makes.pure _
    · exact findIfLoopC_makes n _

theorem allOfLoopC_makes : ∀ n i, Makes csTop 0 (allOfLoopC a p n i)
  | 0, _ => Makes.pure _
  | n + 1, i => by
    unfold allOfLoopC
    refine (CS.on_makes (Sl.get_makes _ _)).bind fun v => (hp v).bind fun b => ?_
    split
    · exact Makes.pure _
    · exact allOfLoopC_makes n _

theorem anyOfLoopC_makes : ∀ n i, Makes csTop 0 (anyOfLoopC a p n i)
  | 0, _ => Makes.pure _
  | n + 1, i => by
    unfold anyOfLoopC
    refine (CS.on_makes (Sl.get_makes _ _)).bind fun v => (hp v).bind fun b => ?_
    split
    · exact Makes.pure _
    · exact anyOfLoopC_makes n _

theorem countIfLoopC_makes : ∀ n i c, Makes csTop 0 (countIfLoopC a p n i c)
  | 0, _, _ => Makes.pure _
  | n + 1, i, c => by
    unfold countIfLoopC
    refine (CS.on_makes (Sl.get_makes _ _)).bind fun v => (hp v).bind fun b => ?_
    split <;> exact countIfLoopC_makes n _ _

theorem replaceIfLoopC_makes (new : T) : ∀ n i, Makes csTop 0 (replaceIfLoopC a p new n i)
  | 0, _ => Makes.pure _
  | n + 1, i => by
    unfold replaceIfLoopC
    refine (CS.on_makes (Sl.get_makes _ _)).bind fun v => (hp v).bind fun b => ?_
    split
    · exact (CS.on_makes (Sl.put_makes _ _ _)).bind fun _ => replaceIfLoopC_makes new n _
    · exact replaceIfLoopC_makes new n _

theorem removeIfLoopC_makes : ∀ n i j, Makes csTop 0 (removeIfLoopC a p n i j)
  | 0, _, _ => Makes.pure _
  | n + 1, i, j => by
    unfold removeIfLoopC
    refine (CS.on_makes (Sl.get_makes _ _)).bind fun v => (hp v).bind fun b => ?_
    split
    · exact (CS.on_makes (Sl.put_makes _ _ _)).bind fun _ => removeIfLoopC_makes n _ _
    · exact removeIfLoopC_makes n _ _

theorem forEachIfLoopC_makes : ∀ n i, Makes csTop 0 (Vec.forEachIfLoopC a p n i)
  | 0, _ => Makes.pure _
  | n + 1, i => by
    unfold Vec.forEachIfLoopC
    refine (CS.on_makes (Sl.get_makes _ _)).bind fun v => (hp v).bind fun b => ?_
    split
    · exact Makes.pure _
    · exact forEachIfLoopC_makes n _
end

theorem generateLoopC_makes {g : GoM (CS T ρ) T} (hg : Makes csTop 0 g) (a : Sl) : ∀ n i, Makes csTop 0 (generateLoopC a g n i)
  | 0, _ => Makes.pure _
  | n + 1, i => by
    unfold generateLoopC
    exact hg.bind fun v => (CS.on_makes (Sl.put_makes _ _ _)).bind fun _ => generateLoopC_makes hg a n _

theorem transformLoopC_makes {op : T → GoM (CS T ρ) T} (ho : ∀ v, Makes csTop 0 (op v)) (a : Sl) : ∀ n i, Makes csTop 0 (transformLoopC a op n i)
  | 0, _ => Makes.pure _
  | n + 1, i => by
    unfold transformLoopC
    exact (CS.on_makes (Sl.get_makes _ _)).bind fun v => (ho v).bind fun b => (CS.on_makes (Sl.put_makes _ _ _)).bind fun _ => transformLoopC_makes ho a n _

theorem transformCopyLoopC_makes {rd : Nat → GoM (CS R ρ) T} (hr : ∀ i, Makes csTop 0 (rd i)) {op : T → GoM (CS R ρ) R} (ho : ∀ v, Makes csTop 0 (op v)) (r : Sl) :
    ∀ n i, Makes csTop 0 (transformCopyLoopC rd op r n i)
  | 0, _ => Makes.pure _
  | n + 1, i => by
    unfold transformCopyLoopC
    exact (hr _).bind fun v => (ho v).bind fun b => (CS.on_makes (Sl.put_makes _ _ _)).bind fun _ => transformCopyLoopC_makes hr ho r n _

theorem forEachLoopC_makes {cb : T → GoM (CS T ρ) Unit} (hc : ∀ v, Makes csTop 0 (cb v)) (a : Sl) : ∀ n i, Makes csTop 0 (Vec.forEachLoopC a cb n i)
  | 0, _ => Makes.pure _
  | n + 1, i => by
    unfold Vec.forEachLoopC
    exact (CS.on_makes (Sl.get_makes _ _)).bind fun v => (hc v).bind fun _ => forEachLoopC_makes hc a n _

theorem forEachMutableLoopC_makes {cb : Nat → GoM (CS T ρ) Unit} (hc : ∀ v, Makes csTop 0 (cb v)) (a : Sl) : ∀ n i, Makes csTop 0 (Vec.forEachMutableLoopC a cb n i)
  | 0, _ => Makes.pure _
  | n + 1, i => by
    unfold Vec.forEachMutableLoopC
    exact (CS.on_makes (Sl.addr_makes _ _)).bind fun v => (hc v).bind fun _ => forEachMutableLoopC_makes hc a n _

theorem forEachMutableIfLoopC_makes {cb : Nat → GoM (CS T ρ) Bool} (hc : ∀ v, Makes csTop 0 (cb v)) (a : Sl) : ∀ n i, Makes csTop 0 (Vec.forEachMutableIfLoopC a cb n i)
  | 0, _ => Makes.pure _
  | n + 1, i => by
    unfold Vec.forEachMutableIfLoopC
    refine (CS.on_makes (Sl.addr_makes _ _)).bind fun v => (hc v).bind fun b => ?_
    split
    · exact Makes.pure _
    · exact forEachMutableIfLoopC_makes hc a n _

section
variable {less : T → T → GoM (CS T ρ) Bool} (hl : ∀ x y, Makes csTop 0 (less x y)) (a : Sl) (v : T)
include hl

theorem lowerBoundFuncLoopE_makes : ∀ n l c, Makes csTop 0 (lowerBoundFuncLoopE a v less n l c)
  | 0, _, _ => Makes.diverge
  | n + 1, l, c => by
    unfold lowerBoundFuncLoopE
    split
    · refine (CS.on_makes (Sl.get_makes _ _)).bind fun x => (hl _ _).bind fun b => ?_
      split <;> exact lowerBoundFuncLoopE_makes n _ _
    · exact Makes.pure _

theorem upperBoundFuncLoopE_makes : ∀ n l c, Makes csTop 0 (upperBoundFuncLoopE a v less n l c)
  | 0, _, _ => Makes.diverge
  | n + 1, l, c => by
    unfold upperBoundFuncLoopE
    split
    · refine (CS.on_makes (Sl.get_makes _ _)).bind fun x => (hl _ _).bind fun b => ?_
      split <;> exact upperBoundFuncLoopE_makes n _ _
    · exact Makes.pure _

theorem binarySearchFuncE_makes : Makes csTop 0 (binarySearchFuncE a v less) := by
  unfold binarySearchFuncE
  refine (lowerBoundFuncLoopE_makes hl a v _ _ _).bind fun l => ?_
  split
  · refine (CS.on_makes (Sl.get_makes _ _)).bind fun x => (hl _ _).bind fun b => ?_
    split <;> exact Makes.pure _
  · exact Makes.pure _
end

/-! ## Heaps and sorting with a comparison function -/

theorem HS.on_makes {x : GoM (Mem T) α} {k : Nat} (h : Makes memTop k x) : Makes hsTop k (HS.on x : GoM (HS T τ) α) := fun s => by
  have := h s.mem
  unfold HS.on
  cases hx : x s.mem <;> rw [hx] at this <;> exact this
theorem HS.recv_makes : Makes hsTop 0 (HS.recv : GoM (HS T τ) Sl) := fun _ => rfl
theorem HS.assign_makes (h : Sl) : Makes hsTop 0 (HS.assign h : GoM (HS T τ) Unit) := fun _ => rfl

theorem heapSwapM_makes (h : Sl) (i j : Int) : Makes hsTop 0 (heapSwapM h i j : GoM (HS T τ) Unit) :=
  (HS.on_makes (Sl.get_makes _ _)).bind fun _ => (HS.on_makes (Sl.get_makes _ _)).bind fun _ => (HS.on_makes (Sl.put_makes _ _ _)).bind fun _ => HS.on_makes (Sl.put_makes _ _ _)

section
variable {less : LessA T τ} (hl : ∀ x y, Makes hsTop 0 (less x y))
include hl

theorem heapUpFuncLoopA_makes (h : Sl) : ∀ n j, Makes hsTop 0 (heapUpFuncLoopA less n h j)
  | 0, _ => Makes.diverge
  | n + 1, j => by
    unfold heapUpFuncLoopA
    dsimp only
    split
    · exact Makes.pure _
    · refine (HS.on_makes (Sl.get_makes _ _)).bind fun _ => (HS.on_makes (Sl.get_makes _ _)).bind fun _ => (hl _ _).bind fun b => ?_
      split
      · exact Makes.pure _
      · exact (heapSwapM_makes _ _ _).bind fun _ => heapUpFuncLoopA_makes h n _

theorem heapSmallerChildFuncA_makes (h : Sl) (j n : Nat) : Makes hsTop 0 (heapSmallerChildFuncA less h j n) := by
  unfold heapSmallerChildFuncA
  split
  · exact (HS.on_makes (Sl.get_makes _ _)).bind fun _ => (HS.on_makes (Sl.get_makes _ _)).bind fun _ => (hl _ _).bind fun b => Makes.pure _
  · exact Makes.pure _

theorem heapDownFuncLoopA_makes (h : Sl) (n : Nat) : ∀ f i, Makes hsTop 0 (heapDownFuncLoopA less f h i n)
  | 0, _ => Makes.diverge
  | f + 1, i => by
    unfold heapDownFuncLoopA
    dsimp only
    split
    · exact Makes.pure _
    · refine (heapSmallerChildFuncA_makes hl _ _ _).bind fun _ => (HS.on_makes (Sl.get_makes _ _)).bind fun _ => (HS.on_makes (Sl.get_makes _ _)).bind fun _ => (hl _ _).bind fun b => ?_
      split
      · exact Makes.pure _
      · exact (heapSwapM_makes _ _ _).bind fun _ => heapDownFuncLoopA_makes h n f _

theorem heapDownFuncA_makes (h : Sl) (i n : Nat) : Makes hsTop 0 (heapDownFuncA h i n less) := (heapDownFuncLoopA_makes hl _ _ _ _).bind fun _ => Makes.pure _

theorem makeHeapFuncLoopA_makes (a : Sl) (n : Nat) : ∀ i, Makes hsTop 0 (makeHeapFuncLoopA less a n i)
  | 0 => Makes.pure _
  | i + 1 => (heapDownFuncA_makes hl _ _ _).bind fun _ => makeHeapFuncLoopA_makes a n i

theorem isHeapFuncLoopA_makes (a : Sl) : ∀ n c p, Makes hsTop 0 (isHeapFuncLoopA a less n c p)
  | 0, _, _ => Makes.pure _
  | n + 1, c, p => by
    unfold isHeapFuncLoopA
    refine (HS.on_makes (Sl.get_makes _ _)).bind fun _ => (HS.on_makes (Sl.get_makes _ _)).bind fun _ => (hl _ _).bind fun b => ?_
    split
    · exact Makes.pure _
    · exact isHeapFuncLoopA_makes a n _ _

theorem popHeapFuncA_makes : Makes hsTop 0 (popHeapFuncA less) :=
  HS.recv_makes.bind fun _ => (heapSwapM_makes _ _ _).bind fun _ => (heapDownFuncA_makes hl _ _ _).bind fun _ => (HS.on_makes (Sl.slice_makes _ _ _)).bind fun _ => (HS.assign_makes _).bind fun _ =>
    HS.on_makes (Sl.get_makes _ _)

theorem removeHeapFuncA_makes (i : Int) : Makes hsTop 0 (removeHeapFuncA i less) := by
  refine HS.recv_makes.bind fun h => ?_
  refine Makes.bind ?_ (fun _ => (HS.on_makes (Sl.slice_makes _ _ _)).bind fun _ => (HS.assign_makes _).bind fun _ => HS.on_makes (Sl.get_makes _ _))
  unfold removeHeapFuncSiftA
  split
  · refine (heapSwapM_makes _ _ _).bind fun _ => (heapDownFuncA_makes hl _ _ _).bind fun b => ?_
    split
    · exact heapUpFuncLoopA_makes hl _ _ _
    · exact Makes.pure _
  · exact Makes.pure _

theorem sortFuncA_makes (sort : Nat → SortProg) (a : Sl) : Makes hsTop 0 (sortFuncA sort a less) :=
  goSort_makes _ _ (Makes.pure _) (fun _ _ => (HS.on_makes (Sl.get_makes _ _)).bind fun _ => (HS.on_makes (Sl.get_makes _ _)).bind fun _ => hl _ _) (fun _ _ => HS.on_makes (sortSwap_makes _ _ _))
end

/-! ## Vectors and stacks -/

theorem VS.on_makes {x : GoM (Mem T) α} {k : Nat} (h : Makes memTop k x) : Makes vsTop k (VS.on x : GoM (VS T) α) := fun s => by
  have := h s.mem
  unfold VS.on
  cases hx : x s.mem <;> rw [hx] at this <;> exact this
theorem VS.recv_makes : Makes vsTop 0 (VS.recv : GoM (VS T) Sl) := fun _ => rfl
theorem VS.assign_makes (h : Sl) : Makes vsTop 0 (VS.assign h : GoM (VS T) Unit) := fun _ => rfl

theorem Vec.popBack_makes [GoZero T] : Makes vsTop 0 (Vec.popBack : GoM (VS T) T) :=
  VS.recv_makes.bind fun _ => (VS.on_makes (Sl.get_makes _ _)).bind fun _ => (VS.on_makes (Sl.put_makes _ _ _)).bind fun _ => (VS.on_makes (Sl.slice_makes _ _ _)).bind fun _ => (VS.assign_makes _).bind fun _ => Makes.pure _

theorem Sl.slice_header {a r : Sl} {i j : Int} {m m' : Mem T} (h : a.slice i j m = .ok r m') :
    m' = m ∧ 0 ≤ i ∧ i ≤ j ∧ j ≤ a.cap ∧ r = { off := a.off + i.toNat, len := (j - i).toNat, cap := a.cap - i.toNat } := by
  unfold Sl.slice at h
  split at h
  · rename_i hc; injection h with h1 h2; exact ⟨h2.symm, hc.1, hc.2.1, hc.2.2, h1.symm⟩
  · exact nomatch h

theorem VS.on_inv {x : GoM (Mem T) α} {s s' : VS T} {a : α} (h : VS.on x s = .ok a s') : x s.mem = .ok a s'.mem ∧ s'.v = s.v := by
  unfold VS.on at h
  cases hx : x s.mem with
  | ok b m => rw [hx] at h; injection h with h1 h2; subst h1 h2; exact ⟨rfl, rfl⟩
  | panic m => rw [hx] at h; exact nomatch h
  | diverge => rw [hx] at h; exact nomatch h

theorem Vec.removeRange_makes [GoZero T] (grow : Nat → Nat → Nat) (i j : Int) (hij : i ≤ j) : Makes vsTop 0 (Vec.removeRange grow i j : GoM (VS T) Unit) := fun s => by
  refine MakesFrom.bind (j := 0) (k := 0) (VS.recv_makes s) (fun v s' hv => ?_)
  injection hv with h1 h2; subst h1 h2
  refine MakesFrom.bind (j := 0) (k := 0) (VS.on_makes (Sl.slice_makes _ _ _) s) (fun a s1 ha => ?_)
  obtain ⟨ha1, _⟩ := VS.on_inv ha
  obtain ⟨_, a1, a2, a3, ea⟩ := Sl.slice_header ha1
  refine MakesFrom.bind (j := 0) (k := 0) (VS.on_makes (Sl.slice_makes _ _ _) s1) (fun b s2 hb => ?_)
  obtain ⟨hb1, _⟩ := VS.on_inv hb
  obtain ⟨_, b1, b2, b3, eb⟩ := Sl.slice_header hb1
  refine MakesFrom.bind (j := 0) (k := 0) (VS.on_makes (Sl.load_makes _) s2) (fun ys s3 hy => ?_)
  obtain ⟨hy1, _⟩ := VS.on_inv hy
  have hlen : ys.length = b.len := by
    unfold Sl.load at hy1; injection hy1 with h1 h2; rw [← h1, Sl.read_length']
  refine MakesFrom.bind (j := 0) (k := 0) (VS.on_makes (Sl.append_makes_room grow a ys (by rw [hlen, ea, eb]; simp only; omega)) s3) (fun t s4 ht => ?_)
  exact ((VS.assign_makes _).bind fun _ => (VS.on_makes (Sl.slice_makes _ _ _)).bind fun _ => VS.on_makes (Sl.clear_makes _)) s4

theorem Vec.removeIf_makes [GoZero T] (cond : σ → T → σ × Bool) (t : σ) : Makes vsTop 0 (Vec.removeIf cond t : GoM (VS T) σ) := by
  have loop : ∀ (a : Sl) n k j t, Makes memTop 0 (removeIfLoop a cond n k j t : GoM (Mem T) (σ × Nat)) := fun a n => by
    induction n with
    | zero => intros; exact Makes.pure _
    | succ n ih =>
      intro k j t
      unfold removeIfLoop
      refine (Sl.get_makes _ _).bind fun v => ?_
      dsimp only
      split
      · exact (Sl.put_makes _ _ _).bind fun _ => ih _ _ _
      · exact ih _ _ _
  exact VS.recv_makes.bind fun v => (VS.on_makes ((loop _ _ _ _ _).bind fun _ => (Sl.slice_makes _ _ _).bind fun _ => Makes.pure _)).bind fun r => (VS.assign_makes _).bind fun _ =>
    (VS.on_makes (Sl.slice_makes _ _ _)).bind fun _ => (VS.on_makes (Sl.clear_makes _)).bind fun _ => Makes.pure _

/-! ## Linked lists -/

theorem DS.load_makes (p : Option Nat) : Makes dsNodes 0 (DS.load p : GoM (DS T) (DNode T)) := fun s => by
  unfold DS.load; split
  · exact ⟨Nat.le_refl _, Nat.le_refl _⟩
  · split
    · rfl
    · exact ⟨Nat.le_refl _, Nat.le_refl _⟩
theorem DS.setNext_makes (p v : Option Nat) : Makes dsNodes 0 (DS.setNext p v : GoM (DS T) Unit) := fun s => by
  unfold DS.setNext; split
  · exact ⟨Nat.le_refl _, Nat.le_refl _⟩
  · split
    · exact List.length_set ..
    · exact ⟨Nat.le_refl _, Nat.le_refl _⟩
theorem DS.setPrev_makes (p v : Option Nat) : Makes dsNodes 0 (DS.setPrev p v : GoM (DS T) Unit) := fun s => by
  unfold DS.setPrev; split
  · exact ⟨Nat.le_refl _, Nat.le_refl _⟩
  · split
    · exact List.length_set ..
    · exact ⟨Nat.le_refl _, Nat.le_refl _⟩
theorem DS.setVal_makes (p : Option Nat) (v : T) : Makes dsNodes 0 (DS.setVal p v : GoM (DS T) Unit) := fun s => by
  unfold DS.setVal; split
  · exact ⟨Nat.le_refl _, Nat.le_refl _⟩
  · split
    · exact List.length_set ..
    · exact ⟨Nat.le_refl _, Nat.le_refl _⟩
theorem DS.alloc_makes (n : DNode T) : Makes dsNodes 1 (DS.alloc n) := fun s => by
  show (s.heap ++ [n]).length = _; simp

theorem Makes.bind1 {μ : σ → Nat} {x : GoM σ α} {f : α → GoM σ β} (h : Makes μ 0 x) (hf : ∀ a, Makes μ 1 (f a)) : Makes μ 1 (x >>= f) :=
  fun s => MakesFrom.bind (j := 0) (k := 1) (h s) (fun a s' _ => hf a s')
theorem Makes.bind1' {μ : σ → Nat} {x : GoM σ α} {f : α → GoM σ β} (h : Makes μ 1 x) (hf : ∀ a, Makes μ 0 (f a)) : Makes μ 1 (x >>= f) :=
  fun s => MakesFrom.bind (j := 1) (k := 0) (h s) (fun a s' _ => hf a s')

theorem DS.mod_makes (f : DS T → DS T) (h : ∀ s, (f s).heap = s.heap) : Makes dsNodes 0 (GoM.modify f) := fun s => by show (f s).heap.length = _; rw [h]; rfl

theorem DL.isEmpty_makes : Makes dsNodes 0 (DL.isEmpty : GoM (DS T) Bool) := Makes.get.bind fun _ => Makes.pure _

theorem DL.tryPopFront_makes [GoZero T] : Makes dsNodes 0 (DL.tryPopFront : GoM (DS T) (T × Bool)) := by
  refine DL.isEmpty_makes.bind fun b => ?_
  split
  · exact Makes.pure _
  · refine Makes.get.bind fun _ => (DS.load_makes _).bind fun _ => (DS.load_makes _).bind fun _ => (DS.setNext_makes _ _).bind fun _ => (DS.load_makes _).bind fun _ => (DS.setPrev_makes _ _).bind fun _ =>
      (DS.setPrev_makes _ _).bind fun _ => (DS.setNext_makes _ _).bind fun _ => Makes.bind ?_ fun _ => Makes.pure _
    exact DS.mod_makes _ (fun _ => rfl)

theorem DL.tryPopBack_makes [GoZero T] : Makes dsNodes 0 (DL.tryPopBack : GoM (DS T) (T × Bool)) := by
  refine DL.isEmpty_makes.bind fun b => ?_
  split
  · exact Makes.pure _
  · refine Makes.get.bind fun _ => (DS.load_makes _).bind fun _ => (DS.load_makes _).bind fun _ => (DS.load_makes _).bind fun _ => (DS.setPrev_makes _ _).bind fun _ => (DS.load_makes _).bind fun _ => (DS.setNext_makes _ _).bind fun _ =>
      (DS.setPrev_makes _ _).bind fun _ => (DS.setNext_makes _ _).bind fun _ => Makes.bind ?_ fun _ => Makes.pure _
    exact DS.mod_makes _ (fun _ => rfl)

theorem DL.clear_makes : Makes dsNodes 0 (DL.clear : GoM (DS T) Unit) := by
  refine Makes.get.bind fun s => ?_
  split
  · exact (DS.setPrev_makes _ _).bind fun _ => (DS.setNext_makes _ _).bind fun _ => DS.mod_makes _ (fun _ => rfl)
  · exact DS.mod_makes _ (fun _ => rfl)

theorem DL.ensureHead_makes [GoZero T] (s : DS T) : MakesFrom dsNodes (if s.l.head = none then 1 else 0) s ((DL.ensureHead : GoM (DS T) Unit) s) := by
  unfold DL.ensureHead
  refine (MakesFrom.bind (j := 0) (Makes.get s) (fun t s' h => ?_)).zero_add
  injection h with h1 h2
  subst h1 h2
  split
  · refine Makes.bind1' (DS.alloc_makes _) (fun p => Makes.bind ?_ fun _ => (DS.setPrev_makes _ _).bind fun _ => DS.setNext_makes _ _) s
    exact DS.mod_makes _ (fun _ => rfl)
  · rfl

theorem DL.pushFront_makes [GoZero T] (v : T) (s : DS T) : MakesFrom dsNodes (if s.l.head = none then 2 else 1) s (DL.pushFront v s) := by
  have : (if s.l.head = none then 2 else 1) = (if s.l.head = none then 1 else 0) + 1 := by split <;> rfl
  rw [this]
  refine MakesFrom.bind (DL.ensureHead_makes s) (fun _ s' _ => ?_)
  refine Makes.bind1 Makes.get (fun _ => (DS.load_makes _).bind1 fun _ => (DS.alloc_makes _).bind1' fun _ => (DS.load_makes _).bind fun _ => (DS.setPrev_makes _ _).bind fun _ => (DS.setNext_makes _ _).bind fun _ => ?_) s'
  exact DS.mod_makes _ (fun _ => rfl)

theorem DL.pushBack_makes [GoZero T] (v : T) (s : DS T) : MakesFrom dsNodes (if s.l.head = none then 2 else 1) s (DL.pushBack v s) := by
  have : (if s.l.head = none then 2 else 1) = (if s.l.head = none then 1 else 0) + 1 := by split <;> rfl
  rw [this]
  refine MakesFrom.bind (DL.ensureHead_makes s) (fun _ s' _ => ?_)
  refine Makes.bind1 Makes.get (fun _ => (DS.load_makes _).bind1 fun _ => (DS.alloc_makes _).bind1' fun _ => (DS.load_makes _).bind fun _ => (DS.setNext_makes _ _).bind fun _ => (DS.setPrev_makes _ _).bind fun _ => ?_) s'
  exact DS.mod_makes _ (fun _ => rfl)

theorem LS.load_makes (p : Option Nat) : Makes lsNodes 0 (LS.load p : GoM (LS T) (LNode T)) := fun s => by
  unfold LS.load; split
  · exact ⟨Nat.le_refl _, Nat.le_refl _⟩
  · split
    · rfl
    · exact ⟨Nat.le_refl _, Nat.le_refl _⟩
theorem LS.setNext_makes (p v : Option Nat) : Makes lsNodes 0 (LS.setNext p v : GoM (LS T) Unit) := fun s => by
  unfold LS.setNext; split
  · exact ⟨Nat.le_refl _, Nat.le_refl _⟩
  · split
    · exact List.length_set ..
    · exact ⟨Nat.le_refl _, Nat.le_refl _⟩
theorem LS.alloc_makes (n : LNode T) : Makes lsNodes 1 (LS.alloc n) := fun s => by
  show (s.heap ++ [n]).length = _; simp
theorem LS.mod_makes (f : LS T → LS T) (h : ∀ s, (f s).heap = s.heap) : Makes lsNodes 0 (GoM.modify f) := fun s => by show (f s).heap.length = _; rw [h]; rfl

theorem LS.mod_bind {f : LS T → LS T} {g : Unit → GoM (LS T) β} (h : ∀ s, (f s).heap = s.heap) (hg : ∀ u, Makes lsNodes 0 (g u)) : Makes lsNodes 0 (GoM.modify f >>= g) := (LS.mod_makes f h).bind hg

theorem LL.pushFront_makes (v : T) : Makes lsNodes 1 (LL.pushFront v) := by
  refine Makes.get.bind1 fun _ => (LS.alloc_makes _).bind1' fun n => ?_
  refine LS.mod_bind ?_ fun _ => LS.mod_bind ?_ fun _ => LS.mod_makes _ ?_ <;> intro s
  · rfl
  · dsimp only; split <;> rfl
  · rfl

theorem LL.pushBack_makes (v : T) : Makes lsNodes 1 (LL.pushBack v) := by
  refine (LS.alloc_makes _).bind1' fun n => Makes.bind ?_ fun _ => LS.mod_bind ?_ fun _ => LS.mod_bind ?_ fun _ => LS.mod_makes _ ?_
  · refine Makes.get.bind fun s => ?_
    split
    · exact LS.setNext_makes _ _
    · exact Makes.pure _
  all_goals intro s
  · rfl
  · dsimp only; split <;> rfl
  · rfl

theorem LL.popFront_makes : Makes lsNodes 0 (LL.popFront : GoM (LS T) T) := by
  refine Makes.bind (Makes.get.bind fun _ => Makes.pure _) fun b => ?_
  split
  · exact Makes.panic
  · refine Makes.get.bind fun _ => (LS.load_makes _).bind fun _ => LS.mod_bind ?_ fun _ => LS.mod_bind ?_ fun _ => LS.mod_bind ?_ fun _ => (LS.load_makes _).bind fun _ => Makes.pure _
    all_goals intro s
    · rfl
    · dsimp only; split <;> rfl
    · rfl

theorem LL.reverseLoop_makes : ∀ f (n h t : Option Nat), Makes lsNodes 0 (LL.reverseLoop f n h t : GoM (LS T) (Option Nat × Option Nat))
  | 0, _, _, _ => Makes.diverge
  | f + 1, n, h, t => by
    unfold LL.reverseLoop
    split
    · exact Makes.pure _
    · exact (LS.load_makes _).bind fun _ => (LS.setNext_makes _ _).bind fun _ => LL.reverseLoop_makes f _ _ _

theorem LL.reverse_makes : Makes lsNodes 0 (LL.reverse : GoM (LS T) Unit) := Makes.get.bind fun _ => (LL.reverseLoop_makes _ _ _ _).bind fun _ => LS.mod_makes _ (fun _ => rfl)

/-! ### Iterating over linked lists -/

theorem LS.setVal_makes (p : Option Nat) (v : T) : Makes lsNodes 0 (LS.setVal p v : GoM (LS T) Unit) := fun s => by
  unfold LS.setVal; split
  · exact ⟨Nat.le_refl _, Nat.le_refl _⟩
  · split
    · exact List.length_set ..
    · exact ⟨Nat.le_refl _, Nat.le_refl _⟩

theorem LL.valuesLoop_makes : ∀ f n i (s : List T), Makes lsNodes 0 (LL.valuesLoop f n i s)
  | 0, _, _, _ => Makes.diverge
  | f + 1, n, i, s => by
    unfold LL.valuesLoop
    split
    · exact Makes.pure _
    · refine (LS.load_makes _).bind fun _ => ?_
      split
      · exact LL.valuesLoop_makes f _ _ _
      · exact Makes.panic

theorem LL.forEachMutableIfLoop_makes (cb : σ → T → σ × T × Bool) : ∀ f n t, Makes lsNodes 0 (LL.forEachMutableIfLoop cb f n t)
  | 0, _, _ => Makes.diverge
  | f + 1, n, t => by
    unfold LL.forEachMutableIfLoop
    split
    · exact Makes.pure _
    · refine (LS.load_makes _).bind fun _ => (LS.setVal_makes _ _).bind fun _ => ?_
      split
      · exact Makes.pure _
      · exact (LS.load_makes _).bind fun _ => LL.forEachMutableIfLoop_makes cb f _ _

theorem LL.forEachMutableLoop_makes (cb : σ → T → σ × T) : ∀ f n t, Makes lsNodes 0 (LL.forEachMutableLoop cb f n t)
  | 0, _, _ => Makes.diverge
  | f + 1, n, t => by
    unfold LL.forEachMutableLoop
    split
    · exact Makes.pure _
    · exact (LS.load_makes _).bind fun _ => (LS.setVal_makes _ _).bind fun _ => (LS.load_makes _).bind fun _ => LL.forEachMutableLoop_makes cb f _ _

theorem LL.forEachLoop_makes (cb : σ → T → σ) : ∀ f n t, Makes lsNodes 0 (LL.forEachLoop cb f n t)
  | 0, _, _ => Makes.diverge
  | f + 1, n, t => by
    unfold LL.forEachLoop
    split
    · exact Makes.pure _
    · exact (LS.load_makes _).bind fun _ => (LS.load_makes _).bind fun _ => LL.forEachLoop_makes cb f _ _

theorem LL.forEachIfLoop_makes (cb : σ → T → σ × Bool) : ∀ f n t, Makes lsNodes 0 (LL.forEachIfLoop cb f n t)
  | 0, _, _ => Makes.diverge
  | f + 1, n, t => by
    unfold LL.forEachIfLoop
    split
    · exact Makes.pure _
    · refine (LS.load_makes _).bind fun _ => ?_
      dsimp only
      split
      · exact Makes.pure _
      · exact (LS.load_makes _).bind fun _ => LL.forEachIfLoop_makes cb f _ _

theorem DL.forEachMutableIfLoop_makes (cb : σ → T → σ × T × Bool) : ∀ f n t, Makes dsNodes 0 (DL.forEachMutableIfLoop cb f n t)
  | 0, _, _ => Makes.diverge
  | f + 1, n, t => by
    unfold DL.forEachMutableIfLoop
    refine Makes.get.bind fun _ => ?_
    split
    · refine (DS.load_makes _).bind fun _ => (DS.setVal_makes _ _).bind fun _ => ?_
      split
      · exact Makes.pure _
      · exact (DS.load_makes _).bind fun _ => DL.forEachMutableIfLoop_makes cb f _ _
    · exact Makes.pure _

theorem DL.forEachMutableLoop_makes (cb : σ → T → σ × T) : ∀ f n t, Makes dsNodes 0 (DL.forEachMutableLoop cb f n t)
  | 0, _, _ => Makes.diverge
  | f + 1, n, t => by
    unfold DL.forEachMutableLoop
    refine Makes.get.bind fun _ => ?_
    split
    · exact (DS.load_makes _).bind fun _ => (DS.setVal_makes _ _).bind fun _ => (DS.load_makes _).bind fun _ => DL.forEachMutableLoop_makes cb f _ _
    · exact Makes.pure _

theorem DL.forEachLoop_makes (cb : σ → T → σ) : ∀ f n t, Makes dsNodes 0 (DL.forEachLoop cb f n t)
  | 0, _, _ => Makes.diverge
  | f + 1, n, t => by
    unfold DL.forEachLoop
    refine Makes.get.bind fun _ => ?_
    split
    · exact (DS.load_makes _).bind fun _ => (DS.load_makes _).bind fun _ => DL.forEachLoop_makes cb f _ _
    · exact Makes.pure _

theorem DL.forEachIfLoop_makes (cb : σ → T → σ × Bool) : ∀ f n t, Makes dsNodes 0 (DL.forEachIfLoop cb f n t)
  | 0, _, _ => Makes.diverge
  | f + 1, n, t => by
    unfold DL.forEachIfLoop
    refine Makes.get.bind fun _ => ?_
    split
    · refine (DS.load_makes _).bind fun _ => ?_
      dsimp only
      split
      · exact Makes.pure _
      · exact (DS.load_makes _).bind fun _ => DL.forEachIfLoop_makes cb f _ _
    · exact Makes.pure _

/-! ## Copies, continued -/

theorem CS.on_inv {x : GoM (Mem T) α} {s s' : CS T ρ} {a : α} (h : CS.on x s = .ok a s') : x s.mem = .ok a s'.mem := by
  unfold CS.on at h
  cases hx : x s.mem with
  | ok b m => rw [hx] at h; injection h with h1 h2; subst h1 h2; rfl
  | panic m => rw [hx] at h; exact nomatch h
  | diverge => rw [hx] at h; exact nomatch h

theorem CS.append_bind [GoZero T] (grow : Nat → Nat → Nat) (r : Sl) (v : T) {f : Sl → GoM (CS T ρ) β} (h : r.len < r.cap) (hf : Makes csTop 0 (f { r with len := r.len + 1 })) :
    Makes csTop 0 (CS.on (r.append grow [v]) >>= f) := fun s => by
  refine MakesFrom.bind (j := 0) (k := 0) (CS.on_makes (Sl.append_makes_room grow r [v] (by simp only [List.length_cons, List.length_nil]; omega)) s) (fun b s' hb => ?_)
  have hb := CS.on_inv hb
  rw [append_one grow r v s.mem h] at hb
  injection hb with h1 h2
  subst h1
  exact hf s'

theorem removeIfCopyLoopC_makes [GoZero T] (grow : Nat → Nat → Nat) (a : Sl) {p : T → GoM (CS T ρ) Bool} (hp : ∀ v, Makes csTop 0 (p v)) :
    ∀ n i (r : Sl), r.len + n ≤ r.cap → Makes csTop 0 (removeIfCopyLoopC grow a p n i r)
  | 0, _, _, _ => Makes.pure _
  | n + 1, i, r, h => by
    unfold removeIfCopyLoopC
    refine (CS.on_makes (Sl.get_makes _ _)).bind fun v => (hp v).bind fun b => ?_
    split
    · exact CS.append_bind grow r v (by omega) (removeIfCopyLoopC_makes grow a hp n _ _ (by show r.len + 1 + n ≤ r.cap; omega))
    · exact removeIfCopyLoopC_makes grow a hp n _ _ (by omega)

theorem transformToLoopC_makes [GoZero R] (grow : Nat → Nat → Nat) {rd : Nat → GoM (CS R ρ) T} (hr : ∀ i, Makes csTop 0 (rd i)) {op : T → GoM (CS R ρ) R} (ho : ∀ v, Makes csTop 0 (op v)) :
    ∀ n i (r : Sl), r.len + n ≤ r.cap → Makes csTop 0 (transformToLoopC grow rd op n i r)
  | 0, _, _, _ => Makes.pure _
  | n + 1, i, r, h => by
    unfold transformToLoopC
    exact (hr i).bind fun v => (ho v).bind fun x => CS.append_bind grow r x (by omega) (transformToLoopC_makes grow hr ho n _ _ (by show r.len + 1 + n ≤ r.cap; omega))

theorem CS.make_bind [GoZero T] {k : Nat} {f : Sl → GoM (CS T ρ) β} {c : Nat} {l : Int} (hl : 0 ≤ l ∧ l ≤ c) (hf : ∀ r : Sl, r.len = l.toNat → r.cap = c → Makes csTop k (f r)) :
    Makes csTop (c + k) (CS.on (Sl.make l (c : Int)) >>= f) := fun s => by
  refine MakesFrom.bind (j := c) (CS.on_makes (Sl.make_makes l (c : Int)) s) (fun r s' hr => ?_)
  have hr := CS.on_inv hr
  refine hf r ?_ ?_ s' <;> · unfold Sl.make at hr; rw [if_pos (by omega)] at hr; injection hr with h1 h2; subst h1; rfl

theorem CS.slice_bind {k : Nat} {f : Sl → GoM (CS T ρ) β} (a : Sl) (i j : Int) (hf : ∀ r : Sl, r.len = (j - i).toNat → r.cap = a.cap - i.toNat → Makes csTop k (f r)) :
    Makes csTop k (CS.on (a.slice i j) >>= f) := fun s => by
  refine (MakesFrom.bind (j := 0) (CS.on_makes (Sl.slice_makes a i j) s) (fun r s' hr => ?_)).zero_add
  obtain ⟨_, _, _, _, e⟩ := Sl.slice_header (CS.on_inv hr)
  subst e
  exact hf _ rfl rfl s'

/-! ## Operator forms of heaps -/

theorem heapUpLoopM_makes [GoOrd T] (h : Sl) : ∀ n j, Makes hsTop 0 (heapUpLoopM n h j : GoM (HS T τ) Unit)
  | 0, _ => Makes.diverge
  | n + 1, j => by
    unfold heapUpLoopM
    dsimp only
    split
    · exact Makes.pure _
    · refine (HS.on_makes (Sl.get_makes _ _)).bind fun _ => (HS.on_makes (Sl.get_makes _ _)).bind fun _ => ?_
      split
      · exact Makes.pure _
      · exact (heapSwapM_makes _ _ _).bind fun _ => heapUpLoopM_makes h n _

theorem heapDownLoopM_makes [GoOrd T] (h : Sl) (n : Nat) : ∀ f i, Makes hsTop 0 (heapDownLoopM f h i n : GoM (HS T τ) Nat)
  | 0, _ => Makes.diverge
  | f + 1, i => by
    have hc : Makes hsTop 0 (heapSmallerChildM h (2 * i + 1) n : GoM (HS T τ) Nat) := by
      unfold heapSmallerChildM
      split
      · exact (HS.on_makes (Sl.get_makes _ _)).bind fun _ => (HS.on_makes (Sl.get_makes _ _)).bind fun _ => Makes.pure _
      · exact Makes.pure _
    unfold heapDownLoopM
    dsimp only
    split
    · exact Makes.pure _
    · refine hc.bind fun _ => (HS.on_makes (Sl.get_makes _ _)).bind fun _ => (HS.on_makes (Sl.get_makes _ _)).bind fun _ => ?_
      split
      · exact Makes.pure _
      · exact (heapSwapM_makes _ _ _).bind fun _ => heapDownLoopM_makes h n f _

theorem heapDownM_makes [GoOrd T] (h : Sl) (i n : Nat) : Makes hsTop 0 (heapDownM h i n : GoM (HS T τ) Bool) := (heapDownLoopM_makes _ _ _ _).bind fun _ => Makes.pure _

theorem makeMinHeapLoopM_makes [GoOrd T] (a : Sl) (n : Nat) : ∀ i, Makes hsTop 0 (makeMinHeapLoopM a n i : GoM (HS T τ) Unit)
  | 0 => Makes.pure _
  | i + 1 => (heapDownM_makes _ _ _).bind fun _ => makeMinHeapLoopM_makes a n i

theorem popMinHeapM_makes [GoOrd T] : Makes hsTop 0 (popMinHeapM : GoM (HS T τ) T) :=
  HS.recv_makes.bind fun _ => (heapSwapM_makes _ _ _).bind fun _ => (heapDownM_makes _ _ _).bind fun _ => (HS.on_makes (Sl.slice_makes _ _ _)).bind fun _ => (HS.assign_makes _).bind fun _ =>
    HS.on_makes (Sl.get_makes _ _)

theorem removeMinHeapM_makes [GoOrd T] (i : Int) : Makes hsTop 0 (removeMinHeapM i : GoM (HS T τ) T) := by
  refine HS.recv_makes.bind fun h => ?_
  refine Makes.bind ?_ (fun _ => (HS.on_makes (Sl.slice_makes _ _ _)).bind fun _ => (HS.assign_makes _).bind fun _ => HS.on_makes (Sl.get_makes _ _))
  unfold removeMinHeapSiftM
  split
  · refine (heapSwapM_makes _ _ _).bind fun _ => (heapDownM_makes _ _ _).bind fun b => ?_
    split
    · exact heapUpLoopM_makes _ _ _
    · exact Makes.pure _
  · exact Makes.pure _

/-! ## Vectors, continued -/

theorem Vec.reserve_makes [GoZero T] (l : Int) (s : VS T) : MakesFrom vsTop (if s.v.cap < l then l.toNat else 0) s ((Vec.reserve l : GoM (VS T) Unit) s) := by
  refine (MakesFrom.bind (j := 0) (VS.recv_makes s) (fun v s' hv => ?_)).zero_add
  injection hv with h1 h2; subst h1 h2
  split
  · exact MakesFrom.bind (j := l.toNat) (k := 0) (VS.on_makes (Sl.make_makes _ _) s) (fun t s' _ => ((VS.on_makes (Sl.copy_makes _ _)).bind fun _ => VS.assign_makes _) s')
  · rfl

theorem Vec.insert_makes [GoZero T] (i : Int) (x : Sl) (s : VS T) :
    MakesFrom vsTop (if s.v.len + x.len ≤ s.v.cap then 0 else s.v.len + x.len) s ((Vec.insert i x : GoM (VS T) Unit) s) := by
  refine (MakesFrom.bind (j := 0) (VS.recv_makes s) (fun v s' hv => ?_)).zero_add
  injection hv with h1 h2; subst h1 h2
  dsimp only
  split
  · exact ((VS.on_makes (Sl.slice_makes _ _ _)).bind fun _ => (VS.on_makes (Sl.slice_makes _ _ _)).bind fun _ => (VS.on_makes (Sl.slice_makes _ _ _)).bind fun _ => (VS.on_makes (Sl.copy_makes _ _)).bind fun _ =>
      (VS.on_makes (Sl.slice_makes _ _ _)).bind fun _ => (VS.on_makes (Sl.copy_makes _ _)).bind fun _ => VS.assign_makes _) s
  · exact MakesFrom.bind (j := s.v.len + x.len) (k := 0) (VS.on_makes (Sl.make_makes _ ((s.v.len + x.len : Nat) : Int)) s) (fun t s' _ =>
      ((VS.on_makes (Sl.slice_makes _ _ _)).bind fun _ => (VS.on_makes (Sl.copy_makes _ _)).bind fun _ => (VS.on_makes (Sl.slice_makes _ _ _)).bind fun _ => (VS.on_makes (Sl.copy_makes _ _)).bind fun _ =>
      (VS.on_makes (Sl.slice_makes _ _ _)).bind fun _ => (VS.on_makes (Sl.slice_makes _ _ _)).bind fun _ => (VS.on_makes (Sl.copy_makes _ _)).bind fun _ => VS.assign_makes _) s')

theorem Vec.appendTo_makes [GoZero T] (grow : Nat → Nat → Nat) (ys : List T) (s : VS T) :
    MakesFrom vsTop (if s.v.len + ys.length ≤ s.v.cap then 0 else max (s.v.len + ys.length) (grow s.v.cap (s.v.len + ys.length))) s
      ((VS.on (s.v.append grow ys) >>= fun t => VS.assign t : GoM (VS T) Unit) s) := by
  split
  · rename_i h; exact ((VS.on_makes (Sl.append_makes_room grow _ ys h)).bind fun t => VS.assign_makes t) s
  · rename_i h; exact MakesFrom.bind (k := 0) (VS.on_makes (Sl.append_makes_new grow _ ys h) s) (fun t s' _ => VS.assign_makes t s')

theorem Vec.pushBack_makes [GoZero T] (grow : Nat → Nat → Nat) (x : T) (s : VS T) :
    MakesFrom vsTop (if s.v.len < s.v.cap then 0 else max (s.v.len + 1) (grow s.v.cap (s.v.len + 1))) s (Vec.pushBack grow x s) := by
  refine (MakesFrom.bind (j := 0) (VS.recv_makes s) (fun v s' hv => ?_)).zero_add
  injection hv with h1 h2; subst h1 h2
  exact Vec.appendTo_makes grow [x] s

theorem Vec.append_makes [GoZero T] (grow : Nat → Nat → Nat) (x : Sl) (s : VS T) :
    MakesFrom vsTop (if s.v.len + x.len ≤ s.v.cap then 0 else max (s.v.len + x.len) (grow s.v.cap (s.v.len + x.len))) s ((Vec.append grow x : GoM (VS T) Unit) s) := by
  refine (MakesFrom.bind (j := 0) (VS.recv_makes s) (fun v s' hv => ?_)).zero_add
  injection hv with h1 h2; subst h1 h2
  refine (MakesFrom.bind (j := 0) (VS.on_makes (Sl.load_makes x) s) (fun ys s' hy => ?_)).zero_add
  obtain ⟨hy1, hy2⟩ := VS.on_inv hy
  unfold Sl.load at hy1; injection hy1 with h1 h2
  have := Vec.appendTo_makes grow ys s'
  rw [hy2, ← h1, Sl.read_length'] at this
  rw [← h1]
  exact this

/-! ## Skip lists -/

/-- What holds of the value, if the call returns one. -/
def RetAll (P : α → Prop) : Outcome α → Prop
  | .ret a => P a
  | _ => True

theorem RetAll.bind {P : α → Prop} {Q : β → Prop} {x : Outcome α} {f : α → Outcome β} (h : RetAll P x) (hf : ∀ a, P a → RetAll Q (f a)) : RetAll Q (x >>= f) := by
  cases x with
  | ret a => exact hf a h
  | panic => trivial
  | diverge => trivial
theorem RetAll.true (x : Outcome α) : RetAll (fun _ => True) x := by cases x <;> trivial
theorem RetAll.get {P : α → Prop} {x : Outcome α} {a : α} (h : RetAll P x) (e : x = .ret a) : P a := by rw [e] at h; exact h

/-- The list has `k` nodes more, and `Len` is the same. -/
def SL.GrownBy (k : Nat) (sl sl' : SL K V) : Prop := sl'.nodes.length = sl.nodes.length + k ∧ sl'.len = sl.len

theorem SL.GrownBy.trans {sl s1 s2 : SL K V} {j k : Nat} (h : SL.GrownBy j sl s1) (h' : SL.GrownBy k s1 s2) : SL.GrownBy (j + k) sl s2 := ⟨by have := h.1; have := h'.1; omega, h'.2.trans h.2⟩
theorem SL.GrownBy.refl (sl : SL K V) : SL.GrownBy 0 sl sl := ⟨rfl, rfl⟩

theorem SL.setNextAt_grown (sl : SL K V) (r : Ref) (i : Nat) (v : Option Nat) : RetAll (SL.GrownBy 0 sl) (sl.setNextAt r i v) := by
  unfold SL.setNextAt
  split
  · exact (RetAll.true _).bind fun _ _ => ⟨rfl, rfl⟩
  · exact (RetAll.true _).bind fun _ _ => (RetAll.true _).bind fun _ _ => ⟨List.length_set .., rfl⟩

theorem RetAll.grown {sl s1 : SL K V} {o : Outcome (SL K V)} (h : SL.GrownBy 0 sl s1) (h' : RetAll (SL.GrownBy 0 s1) o) : RetAll (SL.GrownBy 0 sl) o := by
  cases o with
  | ret a => exact h.trans h'
  | panic => trivial
  | diverge => trivial

theorem SL.insertLinks_grown (node : Nat) (prevs : List (Option Ref)) : ∀ n i (sl : SL K V), RetAll (SL.GrownBy 0 sl) (SL.insertLinks node prevs n i sl)
  | 0, _, sl => SL.GrownBy.refl sl
  | n + 1, _, _ => (RetAll.true _).bind fun _ _ => (RetAll.true _).bind fun _ _ => (SL.setNextAt_grown _ _ _ _).bind fun _ h1 => (SL.setNextAt_grown _ _ _ _).bind fun s2 h2 =>
      RetAll.grown (h1.trans h2) (SL.insertLinks_grown node prevs n _ s2)

theorem SL.raiseHead_grown (node : Nat) : ∀ n i (sl : SL K V), RetAll (SL.GrownBy 0 sl) (SL.raiseHead node n i sl)
  | 0, _, sl => SL.GrownBy.refl sl
  | n + 1, _, _ => (SL.setNextAt_grown _ _ _ _).bind fun s1 h1 => RetAll.grown h1 (SL.raiseHead_grown node n _ s1)

theorem SL.unlink_grown (node : Nat) (prevs : List (Option Ref)) : ∀ n i (sl : SL K V), RetAll (SL.GrownBy 0 sl) (SL.unlink node prevs n i sl)
  | 0, _, sl => SL.GrownBy.refl sl
  | n + 1, _, _ => (RetAll.true _).bind fun _ _ => (RetAll.true _).bind fun _ _ => (SL.setNextAt_grown _ _ _ _).bind fun s1 h1 => RetAll.grown h1 (SL.unlink_grown node prevs n _ s1)

theorem SL.lowerLevel_grown : ∀ n (sl : SL K V), RetAll (SL.GrownBy 0 sl) (SL.lowerLevel n sl)
  | 0, _ => trivial
  | n + 1, sl => by
    unfold SL.lowerLevel
    split
    · refine (RetAll.true _).bind fun o _ => ?_
      split
      · exact RetAll.grown (s1 := { sl with level := sl.level - 1 }) ⟨rfl, rfl⟩ (SL.lowerLevel_grown n _)
      · exact SL.GrownBy.refl sl
    · exact SL.GrownBy.refl sl

theorem SL.insertAt_inserted (rnd : Nat) (key : K) (value : V) (node : Option Nat) (prevs : List (Option Ref)) (sl : SL K V) :
    RetAll (SL.Inserted sl) (sl.insertAt rnd key value node prevs) := by
  unfold SL.insertAt
  cases node with
  | some p => exact (RetAll.true _).bind fun _ _ => .inl ⟨List.length_set .., rfl⟩
  | none =>
    refine (RetAll.true _).bind fun level _ => ?_
    have hn : RetAll (fun r => SL.GrownBy 1 sl r.1) (sl.newNode level key value) := by
      unfold SL.newNode; split
      · exact ⟨by simp, rfl⟩
      · trivial
    refine hn.bind fun r h1 => (SL.insertLinks_grown _ _ _ _ _).bind fun s2 h2 => ?_
    have h12 := h1.trans h2
    by_cases hl : level > s2.level
    · rw [if_pos hl]
      refine (SL.raiseHead_grown _ _ _ _).bind fun s3 h3 => ?_
      have := h12.trans h3
      exact .inr ⟨this.1, by show s3.len + 1 = _; rw [this.2]⟩
    · rw [if_neg hl]
      exact .inr ⟨h12.1, by show s2.len + 1 = _; rw [h12.2]⟩

theorem SL.removeAt_keeps (found : Option (Nat × List (Option Ref))) (sl : SL K V) : RetAll (fun r => r.1.nodes.length = sl.nodes.length) (sl.removeAt found) := by
  unfold SL.removeAt
  cases found with
  | none => exact rfl
  | some r => exact (RetAll.true _).bind fun _ _ => (SL.unlink_grown _ _ _ _ _).bind fun s1 h1 => (SL.lowerLevel_grown _ _).bind fun s2 h2 => (h1.trans h2).1

theorem SL.insert_inserted (impl : SLImpl K) (rnd : Nat) (sl : SL K V) (key : K) (value : V) : RetAll (SL.Inserted sl) (sl.insert impl rnd key value) := by
  have e : sl.insert impl rnd key value = (do let r ← sl.findInsertPoint impl key; r.1.insertAt rnd key value r.2.1 r.2.2) := by
    unfold SL.insert SL.insertAt
    congr 1
  rw [e]
  have hf : RetAll (fun r => SL.GrownBy 0 sl r.1) (sl.findInsertPoint impl key) := by
    unfold SL.findInsertPoint
    refine (RetAll.true _).bind fun _ _ => ?_
    cases impl <;> exact (RetAll.true _).bind fun _ _ => ⟨rfl, rfl⟩
  refine hf.bind fun r hr => ?_
  have := SL.insertAt_inserted rnd key value r.2.1 r.2.2 r.1
  cases hx : r.1.insertAt rnd key value r.2.1 r.2.2 with
  | ret s =>
    rw [hx] at this
    have h1 := hr.1; have h2 := hr.2
    exact this.elim (fun h => .inl ⟨by have := h.1; omega, h.2.trans h2⟩) (fun h => .inr ⟨by have := h.1; omega, by rw [h.2, h2]⟩)
  | panic => trivial
  | diverge => trivial

theorem SL.remove_keeps (impl : SLImpl K) (sl : SL K V) (key : K) : RetAll (fun r => r.1.nodes.length = sl.nodes.length) (sl.remove impl key) := by
  have hp : RetAll (fun r => r.1.nodes.length = sl.nodes.length) (sl.findPrevNodes impl key) := by
    unfold SL.findPrevNodes
    refine (RetAll.true _).bind fun _ _ => ?_
    cases impl <;> exact (RetAll.true _).bind fun _ _ => rfl
  have hf : RetAll (fun r => r.1.nodes.length = sl.nodes.length) (sl.findRemovePoint impl key) := by
    unfold SL.findRemovePoint
    refine hp.bind fun r hr => (RetAll.true _).bind fun _ _ => (RetAll.true _).bind fun o _ => ?_
    cases o with
    | none => exact hr
    | some p =>
      refine (RetAll.true _).bind fun n _ => ?_
      split <;> exact hr
  unfold SL.remove
  refine hf.bind fun r hr => ?_
  obtain ⟨s, f⟩ := r
  cases f with
  | none => exact hr
  | some r => exact (RetAll.true _).bind fun _ _ => (SL.unlink_grown _ _ _ _ _).bind fun s1 h1 => (SL.lowerLevel_grown _ _).bind fun s2 h2 => (h1.trans h2).1.trans hr

theorem SLS.read_makes (f : SL K V → Outcome α) : Makes slsNodes 0 (SLS.read f : GoM (SLS K V τ) α) := fun s => by
  unfold SLS.read; split
  · rfl
  · exact ⟨Nat.le_refl _, Nat.le_refl _⟩
  · trivial
theorem SLS.call_makes (x : GoM τ α) : Makes slsNodes 0 (SLS.call x : GoM (SLS K V τ) α) := fun s => by
  unfold SLS.call; split
  · rfl
  · exact ⟨Nat.le_refl _, Nat.le_refl _⟩
  · trivial
theorem SLS.write_makes (f : SL K V → Outcome (SL K V × α)) (h : ∀ sl, RetAll (fun r => r.1.nodes.length = sl.nodes.length) (f sl)) : Makes slsNodes 0 (SLS.write f : GoM (SLS K V τ) α) := fun s => by
  have := h s.sl
  unfold SLS.write; split
  · rename_i e; rw [e] at this; exact this
  · exact ⟨Nat.le_refl _, Nat.le_refl _⟩
  · trivial

theorem SL.setPrev_keeps (l i : Nat) (p : Ref) (sl : SL K V) : RetAll (fun r => r.1.nodes.length = sl.nodes.length) (SL.setPrev l i p sl) := by
  unfold SL.setPrev; split
  · exact (RetAll.true _).bind fun _ _ => rfl
  · trivial

section
variable (c : CmpM K τ) (key : K)

theorem SLM.lowerBoundInner_makes (i : Nat) : ∀ f p o, Makes slsNodes 0 (SLM.lowerBoundInner c key i f p o : GoM (SLS K V τ) _)
  | 0, _, _ => Makes.diverge
  | _ + 1, _, none => Makes.pure _
  | f + 1, p, some q => by
    unfold SLM.lowerBoundInner
    refine (SLS.read_makes _).bind fun _ => (SLS.call_makes _).bind fun _ => ?_
    split
    · exact Makes.pure _
    · split
      · exact Makes.pure _
      · exact (SLS.read_makes _).bind fun _ => SLM.lowerBoundInner_makes i f _ _

theorem SLM.lowerBoundOuter_makes (n : Nat) : ∀ i p, Makes slsNodes 0 (SLM.lowerBoundOuter c key n i p : GoM (SLS K V τ) _)
  | 0, _ => Makes.pure _
  | i + 1, p => by
    unfold SLM.lowerBoundOuter
    refine (SLS.read_makes _).bind fun _ => (SLM.lowerBoundInner_makes c key _ _ _ _).bind fun r => ?_
    cases r with
    | inl p => exact Makes.pure _
    | inr p => exact SLM.lowerBoundOuter_makes n i p

theorem SLM.lowerBound_makes : Makes slsNodes 0 (SLM.lowerBound c key : GoM (SLS K V τ) _) := by
  refine (SLS.read_makes _).bind fun _ => (SLM.lowerBoundOuter_makes c key _ _ _).bind fun r => ?_
  cases r with
  | inl p => exact Makes.pure _
  | inr p => exact SLS.read_makes _

theorem SLM.findNode_makes : Makes slsNodes 0 (SLM.findNode c key : GoM (SLS K V τ) _) := by
  refine (SLM.lowerBound_makes c key).bind fun r => ?_
  cases r with
  | none => exact Makes.pure _
  | some p =>
    refine (SLS.read_makes _).bind fun _ => (SLS.call_makes _).bind fun _ => ?_
    split <;> exact Makes.pure _

theorem SLM.upperBound_makes : Makes slsNodes 0 (SLM.upperBound c key : GoM (SLS K V τ) _) := by
  refine (SLM.lowerBound_makes c key).bind fun r => ?_
  cases r with
  | none => exact Makes.pure _
  | some p =>
    refine (SLS.read_makes _).bind fun _ => (SLS.call_makes _).bind fun _ => ?_
    split
    · exact SLS.read_makes _
    · exact Makes.pure _

theorem SLM.findPrevInner_makes (i : Nat) : ∀ f p o, Makes slsNodes 0 (SLM.findPrevInner c key i f p o : GoM (SLS K V τ) _)
  | 0, _, _ => Makes.diverge
  | _ + 1, _, none => Makes.pure _
  | f + 1, p, some q => by
    unfold SLM.findPrevInner
    refine (SLS.read_makes _).bind fun _ => (SLS.call_makes _).bind fun _ => ?_
    split
    · exact Makes.pure _
    · exact (SLS.read_makes _).bind fun _ => SLM.findPrevInner_makes i f _ _

theorem SLM.findPrevOuter_makes (n l : Nat) : ∀ i p, Makes slsNodes 0 (SLM.findPrevOuter c key n l i p : GoM (SLS K V τ) _)
  | 0, _ => Makes.pure _
  | i + 1, p => by
    unfold SLM.findPrevOuter
    exact (SLS.read_makes _).bind fun _ => (SLM.findPrevInner_makes c key _ _ _ _).bind fun r => (SLS.write_makes _ (SL.setPrev_keeps _ _ _)).bind fun _ => SLM.findPrevOuter_makes n l i _

theorem SLM.remove_makes : Makes slsNodes 0 (SLM.remove c key : GoM (SLS K V τ) _) := by
  refine Makes.bind ?_ fun found => SLS.write_makes _ (SL.removeAt_keeps found)
  refine Makes.bind ((SLS.read_makes _).bind fun _ => (SLS.read_makes _).bind fun _ => (SLM.findPrevOuter_makes c key _ _ _ _).bind fun _ => SLS.read_makes _) fun prevs => (SLS.read_makes _).bind fun node => ?_
  cases node with
  | none => exact Makes.pure _
  | some p =>
    refine (SLS.read_makes _).bind fun _ => (SLS.call_makes _).bind fun _ => ?_
    split <;> exact Makes.pure _

end

/-- The call neither makes nodes nor changes `Len`. -/
def KeepsLen (x : GoM (SLS K V τ) α) : Prop := ∀ s a s', x s = .ok a s' → SL.GrownBy 0 s.sl s'.sl

theorem KeepsLen.pure (a : α) : KeepsLen (Pure.pure a : GoM (SLS K V τ) α) := fun s b s' h => by injection h with h1 h2; subst h2; exact SL.GrownBy.refl _
theorem KeepsLen.bind {x : GoM (SLS K V τ) α} {f : α → GoM (SLS K V τ) β} (h : KeepsLen x) (hf : ∀ a, KeepsLen (f a)) : KeepsLen (x >>= f) := fun s b s' e => by
  rw [GoM.bind_def] at e
  cases hx : x s with
  | ok a s1 => rw [hx] at e; exact (h s a s1 hx).trans (hf a s1 b s' e)
  | panic _ => rw [hx] at e; exact nomatch e
  | diverge => rw [hx] at e; exact nomatch e
theorem KeepsLen.read (f : SL K V → Outcome α) : KeepsLen (SLS.read f : GoM (SLS K V τ) α) := fun s a s' h => by
  unfold SLS.read at h
  split at h
  · injection h with h1 h2; subst h2; exact SL.GrownBy.refl _
  · exact nomatch h
  · exact nomatch h
theorem KeepsLen.call (x : GoM τ α) : KeepsLen (SLS.call x : GoM (SLS K V τ) α) := fun s a s' h => by
  unfold SLS.call at h
  split at h
  · injection h with h1 h2; subst h2; exact SL.GrownBy.refl _
  · exact nomatch h
  · exact nomatch h
theorem KeepsLen.setPrev (l i : Nat) (p : Ref) : KeepsLen (SLS.write (SL.setPrev l i p) : GoM (SLS K V τ) Unit) := fun s a s' h => by
  unfold SLS.write SL.setPrev at h
  by_cases hc : i < l
  · rw [if_pos hc] at h
    cases hx : setIdx s.sl.prevsCache i (some p) with
    | ret c => rw [hx] at h; injection h with h1 h2; subst h2; exact ⟨rfl, rfl⟩
    | panic => rw [hx] at h; exact nomatch h
    | diverge => rw [hx] at h; exact nomatch h
  · rw [if_neg hc] at h; exact nomatch h

theorem SLM.findInsertInner_keeps (c : CmpM K τ) (key : K) (i : Nat) : ∀ f p o, KeepsLen (SLM.findInsertInner c key i f p o : GoM (SLS K V τ) _)
  | 0, _, _ => fun _ _ _ h => nomatch h
  | _ + 1, _, none => KeepsLen.pure _
  | f + 1, p, some q => by
    unfold SLM.findInsertInner
    refine (KeepsLen.read _).bind fun _ => (KeepsLen.call _).bind fun _ => ?_
    split
    · exact KeepsLen.pure _
    · split
      · exact KeepsLen.pure _
      · exact (KeepsLen.read _).bind fun _ => SLM.findInsertInner_keeps c key i f _ _

theorem SLM.findInsertOuter_keeps (c : CmpM K τ) (key : K) (n l : Nat) : ∀ i p, KeepsLen (SLM.findInsertOuter c key n l i p : GoM (SLS K V τ) _)
  | 0, _ => KeepsLen.pure _
  | i + 1, p => by
    unfold SLM.findInsertOuter
    refine (KeepsLen.read _).bind fun _ => (SLM.findInsertInner_keeps c key _ _ _ _).bind fun r => ?_
    cases r with
    | inl p => exact KeepsLen.pure _
    | inr p => exact (KeepsLen.setPrev _ _ _).bind fun _ => SLM.findInsertOuter_keeps c key n l i p

theorem SLM.findInsertPoint_keeps (c : CmpM K τ) (key : K) : KeepsLen (SLM.findInsertPoint c key : GoM (SLS K V τ) _) := by
  refine (KeepsLen.read _).bind fun _ => (KeepsLen.read _).bind fun _ => (SLM.findInsertOuter_keeps c key _ _ _ _).bind fun r => ?_
  cases r with
  | some p => exact KeepsLen.pure _
  | none => exact (KeepsLen.read _).bind fun _ => KeepsLen.pure _

theorem SLM.insert_inserted (c : CmpM K τ) (rnd : Nat) (key : K) (value : V) {s s' : SLS K V τ} (h : SLM.insert c rnd key value s = .ok () s') : SL.Inserted s.sl s'.sl := by
  unfold SLM.insert at h
  rw [GoM.bind_def] at h
  cases hx : SLM.findInsertPoint c key s with
  | panic _ => rw [hx] at h; exact nomatch h
  | diverge => rw [hx] at h; exact nomatch h
  | ok r s1 =>
    rw [hx] at h
    have h1 := SLM.findInsertPoint_keeps c key s r s1 hx
    have h : SLS.write (fun sl => do let sl ← sl.insertAt rnd key value r.1 r.2; return (sl, ())) s1 = .ok () s' := h
    have hi := SL.insertAt_inserted rnd key value r.1 r.2 s1.sl
    unfold SLS.write at h
    dsimp only at h
    cases hy : s1.sl.insertAt rnd key value r.1 r.2 with
    | panic => rw [hy] at h; exact nomatch h
    | diverge => rw [hy] at h; exact nomatch h
    | ret sl =>
      rw [hy] at h hi
      have h : (Res.ok () { s1 with sl := sl } : Res (SLS K V τ) Unit) = .ok () s' := h
      injection h with _ h2
      subst h2
      have a := h1.1; have b := h1.2
      exact hi.elim (fun h => .inl ⟨by have := h.1; show sl.nodes.length = _; omega, h.2.trans b⟩) (fun h => .inr ⟨by have := h.1; show sl.nodes.length = _; omega, by show sl.len = _; rw [h.2, b]⟩)

end Stl4go
