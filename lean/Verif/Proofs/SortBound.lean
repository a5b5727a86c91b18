import Mathlib.Data.List.Permutation
import Mathlib.Data.Finset.Card
import Mathlib.Data.Finset.Image
import Mathlib.Data.Finset.Range
import Verif.Spec.SortBound
import Verif.Proofs.SortAny
/-! # Lemmas: how often a sort has to compare -/
namespace Stl4go
variable {T U τ : Type}

/-- The pairs that a program compares on a list. -/
def SortProg.asked (l : T → T → Bool) : SortProg → List T → List (T × T)
  | .done, _ => []
  | .less i j k, a =>
    match a[i]?, a[j]? with
    | some x, some y => (x, y) :: (k (l x y)).asked l a
    | _, _ => []
  | .swap i j k, a =>
    match a[i]?, a[j]? with
    | some x, some y => k.asked l ((a.set i y).set j x)
    | _, _ => []

/-! ## The counter counts -/

theorem SortProg.run_counted {a : Sl} (l : T → T → Bool) (p : SortProg) (m : Mem T) (hp : Sl) :
    ∀ {xs out : List T} (t : Nat), xs.length = a.len → p.onList l xs = some out →
      p.run (funcSortableA a (countedLess l)) ⟨m.write a.off xs, t, hp⟩ = .ok () ⟨m.write a.off out, t + (p.asked l xs).length, hp⟩ := by
  induction p with
  | done => intro xs out t _ h; cases h; rfl
  | less i j k ih =>
    intro xs out t hl h
    simp only [SortProg.onList] at h
    split at h
    · rename_i x y hx hy
      have e' := ih (l x y) (t + 1) hl h
      simp only [SortProg.asked, hx, hy, List.length_cons]
      obtain ⟨hi, rfl⟩ := List.getElem?_eq_some_iff.1 hx
      obtain ⟨hj, rfl⟩ := List.getElem?_eq_some_iff.1 hy
      simp only [SortProg.run, funcSortableA, GoM.bind_def, HS.on_eq, Sl.get_write a m xs hl i hi, Sl.get_write a m xs hl j hj, countedLess]
      rw [Nat.add_assoc, Nat.add_comm 1] at e'
      exact e'
    · cases h
  | swap i j k ih =>
    intro xs out t hl h
    simp only [SortProg.onList] at h
    split at h
    · rename_i x y hx hy
      have e' := ih t (by simpa using hl) h
      simp only [SortProg.asked, hx, hy]
      obtain ⟨hi, rfl⟩ := List.getElem?_eq_some_iff.1 hx
      obtain ⟨hj, rfl⟩ := List.getElem?_eq_some_iff.1 hy
      simp only [SortProg.run, funcSortableA, GoM.bind_def, HS.on_eq, sortSwap_eq a m xs hl i j hi hj]
      exact e'
    · cases h

theorem goSort_counted {a : Sl} (l : T → T → Bool) (sort : Nat → SortProg) (s : HS T Nat) {out : List T}
    (h : (sort a.len).onList l (a.read s.mem) = some out) :
    goSort sort (funcSortableA a (countedLess l)) s =
      .ok () ⟨s.mem.write a.off out, s.st + ((sort a.len).asked l (a.read s.mem)).length, s.heap⟩ := by
  have e := SortProg.run_counted (a := a) l (sort a.len) s.mem s.heap s.st (by simp) h
  rw [Sl.write_read] at e
  exact e

/-! ## Renaming the elements, and orders that agree on what is compared -/

theorem SortProg.onList_asked_map (f : U → T) (l : T → T → Bool) (p : SortProg) : ∀ xs : List U,
    p.onList l (xs.map f) = (p.onList (fun x y => l (f x) (f y)) xs).map (List.map f) ∧
      p.asked l (xs.map f) = (p.asked (fun x y => l (f x) (f y)) xs).map (fun q => (f q.1, f q.2)) := by
  induction p with
  | done => intro xs; exact ⟨rfl, rfl⟩
  | less i j k ih =>
    intro xs
    simp only [SortProg.onList, SortProg.asked, List.getElem?_map]
    cases xs[i]? <;> cases xs[j]? <;> simp only [Option.map_some, Option.map_none, List.map_cons, List.map_nil, and_self]
    rename_i x y
    exact ⟨(ih _ xs).1, by rw [(ih _ xs).2]⟩
  | swap i j k ih =>
    intro xs
    simp only [SortProg.onList, SortProg.asked, List.getElem?_map]
    cases xs[i]? <;> cases xs[j]? <;> simp only [Option.map_some, Option.map_none, List.map_nil, and_self]
    rename_i x y
    have h := ih ((xs.set i y).set j x)
    rw [List.map_set, List.map_set] at h
    exact h

theorem SortProg.onList_agree {l l' : T → T → Bool} (p : SortProg) : ∀ xs : List T, (∀ q ∈ p.asked l xs, l' q.1 q.2 = l q.1 q.2) →
    p.onList l' xs = p.onList l xs := by
  induction p with
  | done => intro xs _; rfl
  | less i j k ih =>
    intro xs h
    simp only [SortProg.onList, SortProg.asked] at h ⊢
    cases hx : xs[i]? <;> cases hy : xs[j]? <;> simp only [hx, hy] at h ⊢
    rename_i x y
    rw [h (x, y) (List.mem_cons_self ..)]
    exact ih _ xs fun q hq => h q (List.mem_cons_of_mem _ hq)
  | swap i j k ih =>
    intro xs h
    simp only [SortProg.onList, SortProg.asked] at h ⊢
    cases hx : xs[i]? <;> cases hy : xs[j]? <;> simp only [hx, hy] at h ⊢
    exact ih _ h

/-! ## At least one call less than there are elements -/

/-- Fewer pairs than it takes to connect `n` numbers leave two of them unconnected. -/
theorem exists_labels (n : Nat) : ∀ E : List (Nat × Nat), ∃ f : Nat → Nat, (∀ q ∈ E, f q.1 = f q.2) ∧ n ≤ ((Finset.range n).image f).card + E.length
  | [] => ⟨id, (fun q hq => nomatch hq), by simp⟩
  | (i, j) :: E => by
    obtain ⟨f, h1, h2⟩ := exists_labels n E
    refine ⟨fun k => if f k = f j then f i else f k, fun q hq => ?_, ?_⟩
    · rcases List.mem_cons.1 hq with rfl | hq
      · simp only [if_true]
        split <;> rfl
      · simp only [h1 q hq]
    · have hs : ((Finset.range n).image f).erase (f j) ⊆ (Finset.range n).image (fun k => if f k = f j then f i else f k) := by
        intro v hv
        obtain ⟨hv, hm⟩ := Finset.mem_erase.1 hv
        obtain ⟨k, hk, rfl⟩ := Finset.mem_image.1 hm
        exact Finset.mem_image.2 ⟨k, hk, if_neg hv⟩
      have h3 := Finset.card_le_card hs
      have h4 := Finset.pred_card_le_card_erase (s := (Finset.range n).image f) (a := f j)
      simp only [List.length_cons]
      omega

theorem exists_apart {n : Nat} {E : List (Nat × Nat)} (h : E.length + 1 < n) :
    ∃ f : Nat → Nat, (∀ q ∈ E, f q.1 = f q.2) ∧ ∃ i j, i < n ∧ j < n ∧ f i ≠ f j := by
  obtain ⟨f, h1, h2⟩ := exists_labels n E
  obtain ⟨x, hx, y, hy, hxy⟩ := Finset.one_lt_card.1 (show 1 < ((Finset.range n).image f).card by omega)
  obtain ⟨i, hi, rfl⟩ := Finset.mem_image.1 hx
  obtain ⟨j, hj, rfl⟩ := Finset.mem_image.1 hy
  exact ⟨f, h1, i, j, Finset.mem_range.1 hi, Finset.mem_range.1 hj, hxy⟩

/-- Some elements before all others, otherwise as before. -/
def frontFirst (c : T → Bool) (l : T → T → Bool) (x y : T) : Bool := if c x = c y then l x y else c x

theorem frontFirst_weak {l : T → T → Bool} (hw : StrictWeak l) (c : T → Bool) : StrictWeak (frontFirst c l) where
  irrefl x := by simp only [frontFirst, if_true]; exact hw.irrefl x
  trans x y z := by
    have := hw.trans x y z
    unfold frontFirst
    cases c x <;> cases c y <;> cases c z <;> simp_all
  incomp x y z := by
    have := hw.incomp x y z
    unfold frontFirst
    cases c x <;> cases c y <;> cases c z <;> simp_all

theorem SortedBy.not_both {l l' : T → T → Bool} {out : List T} (h : SortedBy l out) (h' : SortedBy l' out) {x y : T} (hx : x ∈ out) (hy : y ∈ out)
    (hxy : x ≠ y) (h1 : l x y = true) (h2 : l' y x = true) : False := by
  obtain ⟨i, hi, rfl⟩ := List.mem_iff_getElem.1 hx
  obtain ⟨j, hj, rfl⟩ := List.mem_iff_getElem.1 hy
  rcases Nat.lt_trichotomy i j with hij | rfl | hij
  · rw [h' i j hi hj hij] at h2; cases h2
  · exact hxy rfl
  · rw [h j i hj hi hij] at h1; cases h1

theorem SortContract.asks {sort : Nat → SortProg} (hs : SortContract sort) {l : T → T → Bool} (hw : StrictWeak l) (xs : List T) :
    xs.length ≤ ((sort xs.length).asked l xs).length + 1 := by
  cases xs with
  | nil => exact Nat.zero_le _
  | cons d ds =>
  generalize hxs : d :: ds = xs
  let f : Nat → T := fun i => xs.getD i d
  have hmap : (List.range xs.length).map f = xs := by
    apply List.ext_getElem (by simp)
    intro i h1 h2
    simp [f, h2]
  have hk := SortProg.onList_asked_map f l (sort xs.length) (List.range xs.length)
  rw [hmap] at hk
  rw [hk.2, List.length_map]
  generalize hl1 : (fun i j => l (f i) (f j)) = l1
  have hw1 : StrictWeak l1 := by
    subst hl1
    exact ⟨fun a => hw.irrefl _, fun a b c => hw.trans _ _ _, fun a b c => hw.incomp _ _ _⟩
  rw [← Nat.not_lt]
  intro hlt
  obtain ⟨g, hg, i, j, hi, hj, hij⟩ := exists_apart hlt
  obtain ⟨out, ho, -⟩ := hs Nat l1 hw1 (List.range xs.length)
  rw [List.length_range] at ho
  have key : ∀ c : Nat → Bool, (∀ q ∈ (sort xs.length).asked l1 (List.range xs.length), c q.1 = c q.2) → SortedBy (frontFirst c l1) out := by
    intro c hc
    obtain ⟨out', ho', hsrt⟩ := hs Nat _ (frontFirst_weak hw1 c) (List.range xs.length)
    rw [List.length_range] at ho'
    have e := SortProg.onList_agree (l := l1) (l' := frontFirst c l1) (sort xs.length) (List.range xs.length) fun q hq => by
      simp only [frontFirst, hc q hq, if_true]
    rw [e, ho] at ho'
    cases ho'
    exact hsrt
  have h1 := key (fun k => decide (g k = g i)) fun q hq => by rw [hg q hq]
  have h2 := key (fun k => !decide (g k = g i)) fun q hq => by rw [hg q hq]
  have hp := SortProg.onList_perm _ ho
  refine SortedBy.not_both h1 h2 (x := i) (y := j) (hp.mem_iff.2 (List.mem_range.2 hi)) (hp.mem_iff.2 (List.mem_range.2 hj)) (fun e => hij (by rw [e])) ?_ ?_
  · simp [frontFirst, Ne.symm hij]
  · simp [frontFirst, Ne.symm hij]

/-! ## As many arrangements, as many ways to answer -/

theorem set_swap_inj {i j : Nat} {a b : List T} {x y x' y' : T} (hx : a[i]? = some x) (hy : a[j]? = some y) (hx' : b[i]? = some x') (hy' : b[j]? = some y')
    (h : (a.set i y).set j x = (b.set i y').set j x') : a = b := by
  obtain ⟨hi, -⟩ := List.getElem?_eq_some_iff.1 hx
  obtain ⟨hj, -⟩ := List.getElem?_eq_some_iff.1 hy
  have hlen : a.length = b.length := by simpa using congrArg List.length h
  apply List.ext_getElem? 
  intro k
  by_cases hki : k = i
  · subst hki
    have := congrArg (fun l => l[j]?) h
    simp only [List.getElem?_set, List.length_set, hj, hlen ▸ hj, if_true] at this
    rw [hx, hx', this]
  · by_cases hkj : k = j
    · subst hkj
      have := congrArg (fun l => l[i]?) h
      simp only [List.getElem?_set, List.length_set, hi, hlen ▸ hi, if_true, hki, if_false] at this
      rw [hy, hy', this]
    · have := congrArg (fun l => l[k]?) h
      simp only [List.getElem?_set, Ne.symm hki, Ne.symm hkj, if_false] at this
      exact this

theorem SortProg.few_inputs (l : T → T → Bool) (out : List T) (p : SortProg) : ∀ (d : Nat) (S : List (List T)), S.Nodup →
    (∀ xs ∈ S, p.onList l xs = some out ∧ (p.asked l xs).length ≤ d) → S.length ≤ 2 ^ d := by
  induction p with
  | done =>
    intro d S hn h
    have h1 : ∀ xs ∈ S, xs = out := fun xs hx => Option.some.inj (h xs hx).1
    have h2 : S.length ≤ 1 := by
      match S, hn, h1 with
      | [], _, _ => simp
      | [_], _, _ => simp
      | x :: y :: S, hn, h1 =>
        rw [h1 x (by simp), h1 y (by simp)] at hn
        simp at hn
    exact Nat.le_trans h2 Nat.one_le_two_pow
  | less i j k ih =>
    intro d S hn h
    have hcase : ∀ xs ∈ S, ∃ x y, xs[i]? = some x ∧ xs[j]? = some y ∧ (k (l x y)).onList l xs = some out ∧ ((k (l x y)).asked l xs).length + 1 ≤ d := by
      intro xs hx
      have := h xs hx
      simp only [SortProg.onList, SortProg.asked] at this
      cases e1 : xs[i]? <;> cases e2 : xs[j]? <;> simp only [e1, e2] at this
      · exact absurd this.1 (by simp)
      · exact absurd this.1 (by simp)
      · exact absurd this.1 (by simp)
      · exact ⟨_, _, rfl, rfl, this.1, this.2⟩
    cases S with
    | nil => simp
    | cons x0 S0 =>
    generalize hS : x0 :: S0 = S at *
    have hd : 0 < d := by
      obtain ⟨_, _, _, _, _, h5⟩ := hcase x0 (by rw [← hS]; simp)
      omega
    let q : List T → Bool := fun xs => match xs[i]?, xs[j]? with
      | some x, some y => l x y
      | _, _ => false
    have half : ∀ b, (S.filter (fun xs => q xs == b)).length ≤ 2 ^ (d - 1) := by
      intro b
      refine ih b (d - 1) _ (hn.filter _) fun xs hx => ?_
      obtain ⟨hx, hq⟩ := List.mem_filter.1 hx
      obtain ⟨x, y, e1, e2, h3, h4⟩ := hcase xs hx
      have : l x y = b := by
        have : q xs = l x y := by simp only [q, e1, e2]
        rw [← this]; exact beq_iff_eq.1 hq
      rw [this] at h3 h4
      exact ⟨h3, by omega⟩
    have hsum : ∀ R : List (List T), R.length = (R.filter (fun xs => q xs == true)).length + (R.filter (fun xs => q xs == false)).length := by
      intro R
      induction R with
      | nil => rfl
      | cons x R ih =>
        simp only [List.filter_cons, List.length_cons]
        cases q x <;> simp <;> simp at ih <;> omega
    have h1 := half true
    have h2 := half false
    have h3 : 2 ^ d = 2 ^ (d - 1) + 2 ^ (d - 1) := by
      obtain ⟨e, rfl⟩ := Nat.exists_eq_succ_of_ne_zero (Nat.pos_iff_ne_zero.1 hd)
      simp [Nat.pow_succ, Nat.mul_two]
    rw [hsum S, h3]
    omega
  | swap i j k ih =>
    intro d S hn h
    let w : List T → List T := fun xs => match xs[i]?, xs[j]? with
      | some x, some y => (xs.set i y).set j x
      | _, _ => xs
    have hcase : ∀ xs ∈ S, ∃ x y, xs[i]? = some x ∧ xs[j]? = some y ∧ w xs = (xs.set i y).set j x ∧ k.onList l (w xs) = some out ∧ (k.asked l (w xs)).length ≤ d := by
      intro xs hx
      have := h xs hx
      simp only [SortProg.onList, SortProg.asked] at this
      cases e1 : xs[i]? <;> cases e2 : xs[j]? <;> simp only [e1, e2] at this
      · exact absurd this.1 (by simp)
      · exact absurd this.1 (by simp)
      · exact absurd this.1 (by simp)
      · rename_i x y
        have e : w xs = (xs.set i y).set j x := by simp only [w, e1, e2]
        exact ⟨x, y, rfl, rfl, e, by rw [e]; exact this.1, by rw [e]; exact this.2⟩
    have := ih d (S.map w) (hn.map_on fun a ha b hb e => by
      obtain ⟨x, y, e1, e2, e3, -⟩ := hcase a ha
      obtain ⟨x', y', e1', e2', e3', -⟩ := hcase b hb
      rw [e3, e3'] at e
      exact set_swap_inj e1 e2 e1' e2' e) (fun xs hx => by
      obtain ⟨a, ha, rfl⟩ := List.mem_map.1 hx
      obtain ⟨x, y, e1, e2, e3, h4⟩ := hcase a ha
      exact h4)
    simpa using this

theorem natLess_weak : StrictWeak (fun x y : Nat => decide (x < y)) where
  irrefl a := by simp
  trans a b c := by simp only [decide_eq_true_eq]; omega
  incomp a b c := by simp only [decide_eq_false_iff_not]; omega

theorem sorted_range {n : Nat} {out : List Nat} (hp : out.Perm (List.range n)) (hs : SortedBy (fun x y : Nat => decide (x < y)) out) : out = List.range n := by
  refine hp.eq_of_pairwise (le := (· ≤ ·)) (fun a b _ _ => Nat.le_antisymm) ?_ ?_
  · rw [sortedBy_pairwise] at hs
    exact hs.imp (by simp)
  · exact List.pairwise_lt_range.imp Nat.le_of_lt

/-- A maximum. -/
theorem exists_max {α : Type} (f : α → Nat) : ∀ S : List α, S ≠ [] → ∃ x ∈ S, ∀ y ∈ S, f y ≤ f x
  | [], h => absurd rfl h
  | [x], _ => ⟨x, by simp, by simp⟩
  | x :: y :: S, _ => by
    obtain ⟨z, hz, h⟩ := exists_max f (y :: S) (by simp)
    rcases Nat.le_total (f x) (f z) with hx | hx
    · exact ⟨z, List.mem_cons_of_mem _ hz, fun v hv => (List.mem_cons.1 hv).elim (fun e => e ▸ hx) (h v)⟩
    · exact ⟨x, by simp, fun v hv => (List.mem_cons.1 hv).elim (fun e => e ▸ Nat.le_refl _) fun hv => Nat.le_trans (h v hv) hx⟩

theorem SortContract.worst {sort : Nat → SortProg} (hs : SortContract sort) (n : Nat) :
    ∃ xs : List Nat, xs.Perm (List.range n) ∧ (sort n).onList (fun x y => decide (x < y)) xs = some (List.range n) ∧
      n.factorial ≤ 2 ^ ((sort n).asked (fun x y => decide (x < y)) xs).length := by
  obtain ⟨xs, hx, hmax⟩ := exists_max (fun xs => ((sort n).asked (fun x y => decide (x < y)) xs).length) (List.range n).permutations
    (fun e => by have := congrArg List.length e; rw [List.length_permutations] at this; exact absurd this (Nat.factorial_ne_zero _))
  have ho : ∀ ys ∈ (List.range n).permutations, (sort n).onList (fun x y : Nat => decide (x < y)) ys = some (List.range n) := by
    intro ys hy
    have hp := List.mem_permutations.1 hy
    obtain ⟨out, ho, hsrt⟩ := hs Nat _ natLess_weak ys
    rw [hp.length_eq, List.length_range] at ho
    rw [ho, sorted_range ((SortProg.onList_perm _ ho).trans hp) hsrt]
  refine ⟨xs, List.mem_permutations.1 hx, ho xs hx, ?_⟩
  have := SortProg.few_inputs (fun x y : Nat => decide (x < y)) (List.range n) (sort n) _ (List.range n).permutations
    (List.nodup_permutations _ List.nodup_range) (fun ys hy => ⟨ho ys hy, hmax ys hy⟩)
  rwa [List.length_permutations, List.length_range] at this

/-- The contract of `sort.Stable` says all that the one of `sort.Sort` does. -/
theorem StableContract.sorts {stable : Nat → SortProg} (hs : StableContract stable) : SortContract stable := fun T l hw a =>
  let ⟨out, h1, h2, _⟩ := hs T l hw a
  ⟨out, h1, h2⟩

/-! ## A nil comparison function -/

theorem SortProg.run_nil {a : Sl} (l : T → T → Bool) (p : SortProg) (m : Mem T) (hp : Sl) (t : τ) :
    ∀ {xs out : List T}, xs.length = a.len → p.onList l xs = some out → p.asked l xs ≠ [] →
      ∃ ys : List T, ys.Perm xs ∧ p.run (funcSortableA a (fun _ _ => nilCall)) ⟨m.write a.off xs, t, hp⟩ = .panic ⟨m.write a.off ys, t, hp⟩ := by
  induction p with
  | done => intro xs out _ _ h; exact absurd rfl h
  | less i j k ih =>
    intro xs out hl h _
    simp only [SortProg.onList] at h
    split at h
    · rename_i x y hx hy
      obtain ⟨hi, rfl⟩ := List.getElem?_eq_some_iff.1 hx
      obtain ⟨hj, rfl⟩ := List.getElem?_eq_some_iff.1 hy
      refine ⟨xs, List.Perm.refl _, ?_⟩
      simp only [SortProg.run, funcSortableA, GoM.bind_def, HS.on_eq, Sl.get_write a m xs hl i hi, Sl.get_write a m xs hl j hj, nilCall]
    · cases h
  | swap i j k ih =>
    intro xs out hl h hne
    simp only [SortProg.onList] at h
    split at h
    · rename_i x y hx hy
      simp only [SortProg.asked, hx, hy] at hne
      obtain ⟨ys, hp, e⟩ := ih (by simpa using hl) h hne
      obtain ⟨hi, rfl⟩ := List.getElem?_eq_some_iff.1 hx
      obtain ⟨hj, rfl⟩ := List.getElem?_eq_some_iff.1 hy
      refine ⟨ys, hp.trans (List.set_set_perm hi hj), ?_⟩
      simp only [SortProg.run, funcSortableA, GoM.bind_def, HS.on_eq, sortSwap_eq a m xs hl i j hi hj]
      exact e
    · cases h

end Stl4go
