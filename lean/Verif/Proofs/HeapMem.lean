import Verif.Spec.HeapMem
import Verif.Proofs.HeapApi
import Verif.Proofs.Slice
/-! # Lemmas about heaps on memory -/
namespace Stl4go
variable {T τ α β : Type}

theorem GoM.pure_bind' {σ : Type} (a : α) (f : α → GoM σ β) : (pure a >>= f) = f a := rfl

/-- A comparison function without effects. -/
def pureLess (l : T → T → Bool) : LessM T τ := fun x y => pure (l x y)

theorem HS.call_pure (a : α) : HS.call (T := T) (pure a : GoM τ α) = pure a := rfl

/-! ## The operator forms are the function forms with `<` -/

section
variable [GoOrd T]

theorem heapUpLoopM_eq (f : Nat) (h : Sl) (j : Nat) : heapUpLoopM (T := T) (τ := τ) f h j = heapUpFuncLoopM (pureLess GoOrd.lt) f h j := by
  induction f generalizing j with
  | zero => rfl
  | succ f ih => simp only [heapUpLoopM, heapUpFuncLoopM, ih, pureLess, HS.call_pure, GoM.pure_bind']

theorem heapUpM_eq (h : Sl) (j : Nat) : heapUpM (T := T) (τ := τ) h j = heapUpFuncM h j (pureLess GoOrd.lt) := heapUpLoopM_eq _ _ _

theorem heapDownLoopM_eq (f : Nat) (h : Sl) (i n : Nat) :
    heapDownLoopM (T := T) (τ := τ) f h i n = heapDownFuncLoopM (pureLess GoOrd.lt) f h i n := by
  induction f generalizing i with
  | zero => rfl
  | succ f ih =>
    simp only [heapDownLoopM, heapDownFuncLoopM, ih, heapSmallerChildM, heapSmallerChildFuncM, pureLess, HS.call_pure, GoM.pure_bind']

theorem heapDownM_eq (h : Sl) (i n : Nat) : heapDownM (T := T) (τ := τ) h i n = heapDownFuncM h i n (pureLess GoOrd.lt) := by
  simp only [heapDownM, heapDownFuncM, heapDownLoopM_eq]

theorem makeMinHeapLoopM_eq (h : Sl) (n i : Nat) : makeMinHeapLoopM (T := T) (τ := τ) h n i = makeHeapFuncLoopM (pureLess GoOrd.lt) h n i := by
  induction i with
  | zero => rfl
  | succ i ih => simp only [makeMinHeapLoopM, makeHeapFuncLoopM, ih, heapDownM_eq]

theorem makeMinHeapM_eq (h : Sl) : makeMinHeapM (T := T) (τ := τ) h = makeHeapFuncM h (pureLess GoOrd.lt) := makeMinHeapLoopM_eq _ _ _

theorem pushMinHeapM_eq [GoZero T] (grow : Nat → Nat → Nat) (v : T) :
    pushMinHeapM (τ := τ) grow v = pushHeapFuncM grow v (pureLess GoOrd.lt) := by
  simp only [pushMinHeapM, pushHeapFuncM, heapUpM_eq]

theorem popMinHeapM_eq : popMinHeapM (T := T) (τ := τ) = popHeapFuncM (pureLess GoOrd.lt) := by
  simp only [popMinHeapM, popHeapFuncM, heapDownM_eq]

theorem removeMinHeapM_eq (i : Int) : removeMinHeapM (T := T) (τ := τ) i = removeHeapFuncM i (pureLess GoOrd.lt) := by
  simp only [removeMinHeapM, removeHeapFuncM, removeMinHeapSiftM, removeHeapFuncSiftM, heapDownM_eq, heapUpM_eq]

end

/-! ## Steps -/

/-- The state while a heap function works on the slice `h`, whose elements are `xs`. -/
abbrev HS.at (m : Mem T) (h : Sl) (hp : Sl) (xs : List T) (t : τ) : HS T τ := ⟨m.write h.off xs, t, hp⟩

theorem HS.get_at {m : Mem T} {h hp : Sl} {xs : List T} (hl : xs.length = h.len) (t : τ) (i : Nat) (hi : i < xs.length) (f : T → GoM (HS T τ) α) :
    (HS.on (h.get (i : Int)) >>= f) (HS.at m h hp xs t) = f xs[i] (HS.at m h hp xs t) := by
  simp only [GoM.bind_def, HS.on, Sl.get_write h m xs hl i hi]

theorem heapSwapM_at {m : Mem T} {h hp : Sl} {xs : List T} (hl : xs.length = h.len) (t : τ) (i j : Nat) (hi : i < xs.length) (hj : j < xs.length) :
    heapSwapM h (i : Int) (j : Int) (HS.at m h hp xs t) = .ok () (HS.at m h hp (swapped xs i j hi hj) t) := by
  unfold heapSwapM
  rw [HS.get_at hl t j hj, HS.get_at hl t i hi]
  simp only [GoM.bind_def, HS.on, Sl.put_write h m xs hl i _ hi]
  rw [Sl.put_write h m _ (by simpa using hl) j _ (by simpa using hj)]
  rfl

theorem heapSwapM_panic {h : Sl} {i j : Int} (hij : ¬ (0 ≤ i ∧ i < h.len) ∨ ¬ (0 ≤ j ∧ j < h.len)) (s : HS T τ) :
    heapSwapM h i j s = .panic s := by
  unfold heapSwapM
  by_cases hj : 0 ≤ j ∧ j < h.len
  · have hi := hij.resolve_right (fun h => h hj)
    simp only [GoM.bind_def, HS.on, Sl.get, if_pos hj, if_neg hi]
  · simp only [GoM.bind_def, HS.on, Sl.get, if_neg hj]

/-- A function that works on the slice `h` and may call `less`: where it leaves the elements. `Q`: results with the elements then;
`E`: elements when it panics, which only happens in `less`; it hangs only in `less`. -/
def Leaves (less : LessM T τ) (m : Mem T) (h hp : Sl) (Q : α → List T → Prop) (E : List T → Prop) : Res (HS T τ) α → Prop
  | .ok a s => ∃ ys t, s = HS.at m h hp ys t ∧ ys.length = h.len ∧ Q a ys
  | .panic s => ∃ ys t, s = HS.at m h hp ys t ∧ ys.length = h.len ∧ E ys ∧ PanicsWith less t
  | .diverge => Hangs less

variable {less : LessM T τ} {m : Mem T} {h hp : Sl} {Q : α → List T → Prop} {E : List T → Prop}

theorem Leaves.bind {Q' : β → List T → Prop} {x : GoM (HS T τ) α} {f : α → GoM (HS T τ) β} {s : HS T τ} (hx : Leaves less m h hp Q E (x s))
    (hf : ∀ a ys t, ys.length = h.len → Q a ys → Leaves less m h hp Q' E (f a (HS.at m h hp ys t))) :
    Leaves less m h hp Q' E ((x >>= f) s) := by
  rw [GoM.bind_def]
  cases hxs : x s with
  | ok a s' =>
    rw [hxs] at hx
    obtain ⟨ys, t, rfl, hl, hq⟩ := hx
    exact hf a ys t hl hq
  | panic s' => rw [hxs] at hx; exact hx
  | diverge => rw [hxs] at hx; exact hx

theorem Leaves.pure {a : α} {ys : List T} {t : τ} (hl : ys.length = h.len) (hq : Q a ys) :
    Leaves less m h hp Q E ((pure a : GoM (HS T τ) α) (HS.at m h hp ys t)) := ⟨ys, t, rfl, hl, hq⟩

theorem Leaves.call {x y : T} {f : Bool → GoM (HS T τ) α} {ys : List T} {t : τ} (hl : ys.length = h.len) (he : E ys)
    (hf : ∀ b t, Leaves less m h hp Q E (f b (HS.at m h hp ys t))) :
    Leaves less m h hp Q E ((HS.call (less x y) >>= f) (HS.at m h hp ys t)) := by
  simp only [GoM.bind_def, HS.call]
  cases hc : less x y t with
  | ok b t' => exact hf b t'
  | panic t' => exact ⟨ys, t', rfl, hl, he, x, y, t, hc⟩
  | diverge => exact ⟨x, y, t, hc⟩

/-- The elements are those of `xs` in some order, and those at the places `K` are where they were. -/
structure Moved (K : Nat → Prop) (xs ys : List T) : Prop where
  perm : ys.Perm xs
  keep : ∀ k, K k → ys[k]? = xs[k]?

theorem Moved.refl (K : Nat → Prop) (xs : List T) : Moved K xs xs := ⟨List.Perm.refl _, fun _ _ => rfl⟩

theorem Moved.trans {K : Nat → Prop} {xs ys zs : List T} (a : Moved K xs ys) (b : Moved K ys zs) : Moved K xs zs :=
  ⟨b.perm.trans a.perm, fun k hk => (b.keep k hk).trans (a.keep k hk)⟩

theorem Moved.mono {K K' : Nat → Prop} {xs ys : List T} (a : Moved K xs ys) (hk : ∀ k, K' k → K k) : Moved K' xs ys :=
  ⟨a.perm, fun k h => a.keep k (hk k h)⟩

theorem getElem?_swapped (h : List T) (i j : Nat) (hi : i < h.length) (hj : j < h.length) (k : Nat) :
    (swapped h i j hi hj)[k]? = if k = j then h[i]? else if k = i then h[j]? else h[k]? := by
  simp only [swapped, List.getElem?_set]
  grind

theorem Moved.swap {K : Nat → Prop} (xs : List T) (i j : Nat) (hi : i < xs.length) (hj : j < xs.length) (ki : ¬ K i) (kj : ¬ K j) :
    Moved K xs (swapped xs i j hi hj) where
  perm := swapped_perm _ _ _ _ _
  keep k hk := by
    rw [getElem?_swapped, if_neg (by rintro rfl; exact kj hk), if_neg (by rintro rfl; exact ki hk)]

/-! ## Any comparison function -/

theorem heapUpFuncLoopM_leaves (J : Nat) (f : Nat) : ∀ (xs : List T) (j : Nat) (t : τ), j < f → j ≤ J → j < xs.length → xs.length = h.len →
    ∀ xs0, Moved (fun k => J < k) xs0 xs →
    Leaves less m h hp (fun _ ys => Moved (fun k => J < k) xs0 ys) (fun ys => Moved (fun k => J < k) xs0 ys)
      (heapUpFuncLoopM less f h j (HS.at m h hp xs t)) := by
  induction f with
  | zero => intro xs j t h; omega
  | succ f ih =>
    intro xs j t hf hJ hj hl xs0 hm
    simp only [heapUpFuncLoopM]
    by_cases hj0 : (j - 1) / 2 = j
    · rw [if_pos hj0]
      exact .pure hl hm
    · rw [if_neg hj0, HS.get_at hl t j hj, HS.get_at hl t _ (by omega)]
      refine .call hl hm fun b t => ?_
      cases b with
      | false => exact .pure hl hm
      | true =>
        simp only [Bool.not_true, if_false, Bool.false_eq_true]
        rw [GoM.bind_ok (heapSwapM_at hl t ((j - 1) / 2) j (by omega) hj)]
        exact ih _ _ t (by omega) (by omega) (by simp; omega) (by simpa using hl) xs0
          (hm.trans (.swap xs _ _ (by omega) hj (by omega) (by omega)))

theorem heapUpFuncM_leaves (xs : List T) (j : Nat) (t : τ) (hj : j < xs.length) (hl : xs.length = h.len) :
    Leaves less m h hp (fun _ ys => Moved (fun k => j < k) xs ys) (fun ys => Moved (fun k => j < k) xs ys)
      (heapUpFuncM h j less (HS.at m h hp xs t)) :=
  heapUpFuncLoopM_leaves j (j + 1) xs j t (by omega) (by omega) hj hl xs (.refl _ _)

theorem heapSmallerChildFuncM_leaves (xs : List T) (j1 n : Nat) (t : τ) (h1 : j1 < n) (hn : n ≤ xs.length) (hl : xs.length = h.len)
    (he : E xs) : Leaves less m h hp (fun j ys => ys = xs ∧ j1 ≤ j ∧ j < n) E (heapSmallerChildFuncM less h j1 n (HS.at m h hp xs t)) := by
  unfold heapSmallerChildFuncM
  by_cases h2 : j1 + 1 < n
  · rw [if_pos h2, HS.get_at hl t (j1 + 1) (by omega), HS.get_at hl t j1 (by omega)]
    refine .call hl he fun b t => .pure hl ⟨rfl, ?_⟩
    cases b <;> simp <;> omega
  · rw [if_neg h2]
    exact .pure hl ⟨rfl, by omega, h1⟩

theorem heapDownFuncLoopM_leaves (I n : Nat) (f : Nat) : ∀ (xs : List T) (i : Nat) (t : τ), n - i < f → I ≤ i → n ≤ xs.length →
    xs.length = h.len → ∀ xs0, Moved (fun k => k < I ∨ n ≤ k) xs0 xs →
    Leaves less m h hp (fun _ ys => Moved (fun k => k < I ∨ n ≤ k) xs0 ys) (fun ys => Moved (fun k => k < I ∨ n ≤ k) xs0 ys)
      (heapDownFuncLoopM less f h i n (HS.at m h hp xs t)) := by
  induction f with
  | zero => intro xs j t h; omega
  | succ f ih =>
    intro xs i t hf hI hn hl xs0 hm
    simp only [heapDownFuncLoopM]
    by_cases h1 : 2 * i + 1 ≥ n
    · rw [if_pos h1]
      exact .pure hl hm
    · rw [if_neg h1]
      refine (heapSmallerChildFuncM_leaves xs (2 * i + 1) n t (by omega) hn hl hm).bind fun j ys t hly => ?_
      rintro ⟨rfl, hj1, hj2⟩
      rw [HS.get_at hl t j (by omega), HS.get_at hl t i (by omega)]
      refine .call hl hm fun b t => ?_
      cases b with
      | false => exact .pure hl hm
      | true =>
        simp only [Bool.not_true, if_false, Bool.false_eq_true]
        rw [GoM.bind_ok (heapSwapM_at hl t i j (by omega) (by omega))]
        exact ih _ _ t (by omega) (by omega) (by simp; omega) (by simpa using hl) xs0
          (hm.trans (.swap ys _ _ (by omega) (by omega) (by omega) (by omega)))

theorem heapDownFuncM_leaves (xs : List T) (i n : Nat) (t : τ) (hn : n ≤ xs.length) (hl : xs.length = h.len) :
    Leaves less m h hp (fun _ ys => Moved (fun k => k < i ∨ n ≤ k) xs ys) (fun ys => Moved (fun k => k < i ∨ n ≤ k) xs ys)
      (heapDownFuncM h i n less (HS.at m h hp xs t)) :=
  (heapDownFuncLoopM_leaves i n (n + 1) xs i t (by omega) (by omega) hn hl xs (.refl _ _)).bind fun _ _ _ hl hq => .pure hl hq

theorem Leaves.weaken {Q' : α → List T → Prop} {E' : List T → Prop} {r : Res (HS T τ) α} (hr : Leaves less m h hp Q E r)
    (hq : ∀ a ys, Q a ys → Q' a ys) (he : ∀ ys, E ys → E' ys) : Leaves less m h hp Q' E' r := by
  cases r with
  | ok a s => obtain ⟨ys, t, e, hl, q⟩ := hr; exact ⟨ys, t, e, hl, hq _ _ q⟩
  | panic s => obtain ⟨ys, t, e, hl, q, p⟩ := hr; exact ⟨ys, t, e, hl, he _ q, p⟩
  | diverge => exact hr

theorem makeHeapFuncLoopM_leaves (n i : Nat) : ∀ (xs : List T) (t : τ), n ≤ xs.length → xs.length = h.len → ∀ xs0, xs.Perm xs0 →
    Leaves less m h hp (fun _ ys => ys.Perm xs0) (fun ys => ys.Perm xs0) (makeHeapFuncLoopM less h n i (HS.at m h hp xs t)) := by
  induction i with
  | zero => intro xs t hn hl xs0 hp; exact .pure hl hp
  | succ i ih =>
    intro xs t hn hl xs0 hp
    refine ((heapDownFuncM_leaves xs i n t hn hl).weaken (fun _ ys hy => (hy.perm.trans hp : ys.Perm xs0)) (fun ys hy => hy.perm.trans hp)).bind
      fun a ys t hly hy => ih ys t (by omega) hly xs0 hy

theorem makeHeapFuncM_leaves (xs : List T) (t : τ) (hl : xs.length = h.len) :
    Leaves less m h hp (fun _ ys => ys.Perm xs) (fun ys => ys.Perm xs) (makeHeapFuncM h less (HS.at m h hp xs t)) :=
  makeHeapFuncLoopM_leaves h.len (h.len / 2) xs t (by omega) hl xs (.refl _)

/-- The part of `PopHeapFunc` before `*heap` is assigned. -/
theorem popSift_leaves (xs : List T) (n : Nat) (t : τ) (hn : xs.length = n + 1) (hl : xs.length = h.len) :
    Leaves less m h hp (fun _ ys => ys.Perm xs ∧ ys[n]? = xs[0]?) (fun ys => ys.Perm xs ∧ ys[n]? = xs[0]?)
      ((do heapSwapM h (0 : Int) (n : Int); heapDownFuncM h 0 n less : GoM (HS T τ) Bool) (HS.at m h hp xs t)) := by
  have e : heapSwapM h (0 : Int) (n : Int) (HS.at m h hp xs t) = _ := heapSwapM_at (m := m) (hp := hp) hl t 0 n (by omega) (by omega)
  rw [GoM.bind_ok e]
  have key : ∀ ys, Moved (fun k => k < 0 ∨ n ≤ k) (swapped xs 0 n (by omega) (by omega)) ys → ys.Perm xs ∧ ys[n]? = xs[0]? := by
    intro ys hy
    refine ⟨hy.perm.trans (swapped_perm _ _ _ _ _), ?_⟩
    rw [hy.keep n (.inr (Nat.le_refl _)), getElem?_swapped, if_pos rfl]
  exact (heapDownFuncM_leaves _ 0 n t (by simp; omega) (by simpa using hl)).weaken (fun _ => key) key

/-- The part of `RemoveHeapFunc` before `*heap` is assigned. -/
theorem removeSift_leaves (xs : List T) (i n : Nat) (t : τ) (hn : xs.length = n + 1) (hi : i < xs.length) (hl : xs.length = h.len) :
    Leaves less m h hp (fun _ ys => ys.Perm xs ∧ ys[n]? = xs[i]?) (fun ys => ys.Perm xs ∧ ys[n]? = xs[i]?)
      (removeHeapFuncSiftM h (i : Int) (n : Int) less (HS.at m h hp xs t)) := by
  unfold removeHeapFuncSiftM
  by_cases hni : n = i
  · subst hni
    rw [if_neg (by simp)]
    exact .pure hl ⟨.refl _, rfl⟩
  · rw [if_pos (by omega), GoM.bind_ok (heapSwapM_at hl t i n (by omega) (by omega))]
    have key : ∀ ys, Moved (fun k => n ≤ k) (swapped xs i n (by omega) (by omega)) ys → ys.Perm xs ∧ ys[n]? = xs[i]? := by
      intro ys hy
      refine ⟨hy.perm.trans (swapped_perm _ _ _ _ _), ?_⟩
      rw [hy.keep n (Nat.le_refl _), getElem?_swapped, if_pos rfl]
    simp only [Int.toNat_natCast]
    refine ((heapDownFuncM_leaves _ i n t (by simp; omega) (by simpa using hl)).weaken
      (fun _ ys hy => (hy.mono (fun k hk => .inr hk) : Moved (fun k => n ≤ k) (swapped xs i n (by omega) (by omega)) ys))
      (fun ys hy => key ys (hy.mono (fun k hk => .inr hk)))).bind fun b ys t hly hy => ?_
    cases b with
    | true => exact .pure hly (key ys hy)
    | false =>
      have hlen := hy.perm.length_eq
      simp only [length_swapped] at hlen
      refine (heapUpFuncM_leaves ys i t (by omega) hly).weaken (fun _ zs hz => ?_) (fun zs hz => ?_) <;>
        exact key zs (hy.trans (hz.mono (fun k hk => by omega)))

/-! ## A comparison function that always answers as `l` does -/

theorem answers_pure (l : T → T → Bool) : Answers (pureLess l : LessM T τ) l := fun _ _ t => ⟨t, rfl⟩

variable {l : T → T → Bool}

theorem Answers.call (ha : Answers less l) (x y : T) (f : Bool → GoM (HS T τ) α) (mm : Mem T) (t : τ) :
    ∃ t', (HS.call (less x y) >>= f) ⟨mm, t, hp⟩ = f (l x y) ⟨mm, t', hp⟩ := by
  obtain ⟨t', e⟩ := ha x y t
  exact ⟨t', by simp only [GoM.bind_def, HS.call, e]⟩

theorem idx_ret {a : List T} {i : Nat} {x : T} (h : idx a i = .ret x) : ∃ hi : i < a.length, x = a[i] := by
  unfold idx at h
  cases hx : a[i]? with
  | none => rw [hx] at h; cases h
  | some v =>
    rw [hx] at h
    obtain ⟨hi, e⟩ := List.getElem?_eq_some_iff.1 hx
    cases h
    exact ⟨hi, e.symm⟩

theorem heapUpFuncLoopM_refines (ha : Answers less l) (f : Nat) : ∀ (xs ys : List T) (j : Nat) (t : τ), xs.length = h.len → j < xs.length →
    heapUpFuncLoop l f xs j = .ret ys → ys.length = h.len ∧ ∃ t', heapUpFuncLoopM less f h j (HS.at m h hp xs t) = .ok () (HS.at m h hp ys t') := by
  induction f with
  | zero => intro xs ys j t hl hj e; cases e
  | succ f ih =>
    intro xs ys j t hl hj e
    simp only [heapUpFuncLoop] at e
    simp only [heapUpFuncLoopM]
    by_cases hj0 : (j - 1) / 2 = j
    · rw [if_pos hj0] at e ⊢
      cases e
      exact ⟨hl, t, rfl⟩
    · rw [if_neg hj0, idx_of_lt hj, idx_of_lt (by omega : (j - 1) / 2 < xs.length), heapSwap_eq xs _ _ (by omega) hj] at e
      simp only [Outcome.ret_bind] at e
      rw [if_neg hj0, HS.get_at hl t j hj, HS.get_at hl t _ (by omega)]
      obtain ⟨t1, e1⟩ := ha.call (hp := hp) xs[j] (xs[(j - 1) / 2]'(by omega))
        (fun b => if !b then pure () else do heapSwapM h ((j - 1) / 2 : Nat) j; heapUpFuncLoopM less f h ((j - 1) / 2)) (m.write h.off xs) t
      refine Eq.rec (motive := fun r _ => ys.length = h.len ∧ ∃ t', r = .ok () (HS.at m h hp ys t')) ?_ e1.symm
      cases hb : l xs[j] (xs[(j - 1) / 2]'(by omega)) with
      | false => rw [hb] at e; cases e; exact ⟨hl, t1, rfl⟩
      | true =>
        rw [hb] at e
        simp only [Bool.not_true, if_false, Bool.false_eq_true]
        rw [GoM.bind_ok (heapSwapM_at hl t1 ((j - 1) / 2) j (by omega) hj)]
        exact ih _ ys _ t1 (by simpa using hl) (by simp; omega) e

theorem heapUpFuncM_refines (ha : Answers less l) (xs ys : List T) (j : Nat) (t : τ) (hl : xs.length = h.len) (hj : j < xs.length)
    (e : heapUpFunc xs j l = .ret ys) : ys.length = h.len ∧ ∃ t', heapUpFuncM h j less (HS.at m h hp xs t) = .ok () (HS.at m h hp ys t') :=
  heapUpFuncLoopM_refines ha _ xs ys j t hl hj e

theorem heapSmallerChildFuncM_refines (ha : Answers less l) (xs : List T) (j1 n j : Nat) (t : τ) (hl : xs.length = h.len)
    (hn : n ≤ xs.length) (e : heapSmallerChildFunc l xs j1 n = .ret j) :
    ∃ t', heapSmallerChildFuncM less h j1 n (HS.at m h hp xs t) = .ok j (HS.at m h hp xs t') := by
  unfold heapSmallerChildFunc at e
  unfold heapSmallerChildFuncM
  by_cases h2 : j1 + 1 < n
  · simp only [if_pos h2] at e
    rw [idx_of_lt (by omega), idx_of_lt (by omega)] at e
    rw [if_pos h2, HS.get_at hl t (j1 + 1) (by omega), HS.get_at hl t j1 (by omega)]
    obtain ⟨t1, e1⟩ := ha.call (hp := hp) (xs[j1 + 1]'(by omega)) (xs[j1]'(by omega)) (fun b => pure (if b then j1 + 1 else j1)) (m.write h.off xs) t
    cases e
    exact ⟨t1, e1⟩
  · simp only [if_neg h2] at e ⊢
    cases e
    exact ⟨t, rfl⟩

theorem heapDownFuncLoopM_refines (ha : Answers less l) (n : Nat) (f : Nat) : ∀ (xs ys : List T) (i i' : Nat) (t : τ), xs.length = h.len →
    n ≤ xs.length → heapDownFuncLoop l f xs i n = .ret (ys, i') →
    ys.length = h.len ∧ ∃ t', heapDownFuncLoopM less f h i n (HS.at m h hp xs t) = .ok i' (HS.at m h hp ys t') := by
  induction f with
  | zero => intro xs ys i i' t hl hn e; cases e
  | succ f ih =>
    intro xs ys i i' t hl hn e
    simp only [heapDownFuncLoop] at e
    simp only [heapDownFuncLoopM]
    by_cases h1 : 2 * i + 1 ≥ n
    · rw [if_pos h1] at e ⊢
      cases e
      exact ⟨hl, t, rfl⟩
    · rw [if_neg h1] at e ⊢
      cases hc : heapSmallerChildFunc l xs (2 * i + 1) n with
      | panic => rw [hc] at e; cases e
      | diverge => rw [hc] at e; cases e
      | ret j =>
        have hj : 2 * i + 1 ≤ j ∧ j < n := by
          unfold heapSmallerChildFunc at hc
          by_cases h2 : 2 * i + 1 + 1 < n
          · simp only [if_pos h2] at hc
            rw [idx_of_lt (by omega), idx_of_lt (by omega)] at hc
            cases hc
            cases l _ _ <;> simp <;> omega
          · simp only [if_neg h2] at hc
            cases hc
            omega
        obtain ⟨t1, e1⟩ := heapSmallerChildFuncM_refines (m := m) (hp := hp) ha xs _ n j t hl hn hc
        rw [hc, Outcome.ret_bind, idx_of_lt (by omega), idx_of_lt (by omega)] at e
        simp only [Outcome.ret_bind] at e
        rw [heapSwap_eq xs i j (by omega) (by omega)] at e
        rw [GoM.bind_ok e1, HS.get_at hl t1 j (by omega), HS.get_at hl t1 i (by omega)]
        obtain ⟨t2, e2⟩ := ha.call (hp := hp) (xs[j]'(by omega)) (xs[i]'(by omega))
          (fun b => if !b then pure i else do heapSwapM h i j; heapDownFuncLoopM less f h j n) (m.write h.off xs) t1
        refine Eq.rec (motive := fun r _ => ys.length = h.len ∧ ∃ t', r = .ok i' (HS.at m h hp ys t')) ?_ e2.symm
        cases hb : l (xs[j]'(by omega)) (xs[i]'(by omega)) with
        | false => rw [hb] at e; cases e; exact ⟨hl, t2, rfl⟩
        | true =>
          rw [hb] at e
          simp only [Bool.not_true, if_false, Bool.false_eq_true]
          rw [GoM.bind_ok (heapSwapM_at hl t2 i j (by omega) (by omega))]
          exact ih _ ys _ _ t2 (by simpa using hl) (by simpa using hn) e

theorem heapDownFuncM_refines (ha : Answers less l) (xs ys : List T) (i n : Nat) (b : Bool) (t : τ) (hl : xs.length = h.len) (hn : n ≤ xs.length)
    (e : heapDownFunc xs i n l = .ret (ys, b)) :
    ys.length = h.len ∧ ∃ t', heapDownFuncM h i n less (HS.at m h hp xs t) = .ok b (HS.at m h hp ys t') := by
  unfold heapDownFunc at e
  cases hd : heapDownFuncLoop l (n + 1) xs i n with
  | panic => rw [hd] at e; cases e
  | diverge => rw [hd] at e; cases e
  | ret p =>
    obtain ⟨zs, i'⟩ := p
    rw [hd] at e
    cases e
    obtain ⟨a, t1, e1⟩ := heapDownFuncLoopM_refines (m := m) (hp := hp) ha n _ xs _ i i' t hl hn hd
    exact ⟨a, t1, by rw [heapDownFuncM, GoM.bind_ok e1]; rfl⟩

theorem makeHeapFuncLoopM_refines (ha : Answers less l) (n i : Nat) : ∀ (xs ys : List T) (t : τ), xs.length = h.len → n ≤ xs.length →
    makeHeapFuncLoop l n i xs = .ret ys →
    ys.length = h.len ∧ ∃ t', makeHeapFuncLoopM less h n i (HS.at m h hp xs t) = .ok () (HS.at m h hp ys t') := by
  induction i with
  | zero => intro xs ys t hl hn e; cases e; exact ⟨hl, t, rfl⟩
  | succ i ih =>
    intro xs ys t hl hn e
    simp only [makeHeapFuncLoop] at e
    cases hd : heapDownFunc xs i n l with
    | panic => rw [hd] at e; cases e
    | diverge => rw [hd] at e; cases e
    | ret p =>
      obtain ⟨zs, b⟩ := p
      rw [hd] at e
      obtain ⟨a, t1, e1⟩ := heapDownFuncM_refines (m := m) (hp := hp) ha xs zs i n b t hl hn hd
      obtain ⟨a2, t2, e2⟩ := ih zs ys t1 a (by omega) e
      exact ⟨a2, t2, by rw [makeHeapFuncLoopM, GoM.bind_ok e1, e2]⟩

end Stl4go
