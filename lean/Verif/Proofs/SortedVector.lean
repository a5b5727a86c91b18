import Verif.Spec.SortedVector
import Verif.Proofs.VectorRun
import Verif.Proofs.Sort
import Verif.Props.BinarySearch
import Verif.Props.Sort
/-! # Lemmas about vectors kept sorted -/
namespace Stl4go
variable {T : Type} {less : T → T → Bool}

/-! ## Lists -/

/-- `s` is sorted and has the elements of `l`, equivalent ones in the order they have in `l`. -/
structure BagRep (less : T → T → Bool) (l s : List T) : Prop where
  sorted : s.Pairwise (fun x y => less y x = false)
  keeps : ∀ x, s.filter (like less x) = l.filter (like less x)

theorem BagRep.eq (hw : StrictWeak less) {l s : List T} (h : BagRep less l s) : s = sortedStably less l :=
  stable_eq hw ((sortedBy_pairwise _).2 h.sorted) h.keeps

theorem BagRep.perm (hw : StrictWeak less) {l s : List T} (h : BagRep less l s) : s.Perm l := by
  rw [h.eq hw]; exact (sortedStably_spec hw l).2.2

theorem BagRep.of (hw : StrictWeak less) (l : List T) : BagRep less l (sortedStably less l) :=
  ⟨(sortedBy_pairwise _).1 (sortedStably_spec hw l).1, (sortedStably_spec hw l).2.1⟩

theorem BagRep.nil : BagRep less [] [] := ⟨List.Pairwise.nil, fun _ => rfl⟩

theorem like_self (hw : StrictWeak less) (x : T) : like less x x = true := by simp [like, hw.irrefl]

theorem like_iff (x y : T) : like less x y = true ↔ less x y = false ∧ less y x = false := by simp [like]

/-- Equivalent elements are equivalent to the same ones. -/
theorem like_congr (hw : StrictWeak less) {x y : T} (h : like less x y = true) : like less x = like less y := by
  have ⟨h1, h2⟩ := (like_iff x y).1 h
  funext z
  rw [Bool.eq_iff_iff, like_iff, like_iff]
  constructor
  · intro ⟨a, b⟩; exact ⟨hw.negTrans h2 a, hw.negTrans b h1⟩
  · intro ⟨a, b⟩; exact ⟨hw.negTrans h1 a, hw.negTrans b h2⟩

theorem any_eq_filter (p : T → Bool) (l : List T) : l.any p = decide ((l.filter p).length ≠ 0) := by
  induction l with
  | nil => rfl
  | cons x l ih =>
    by_cases h : p x = true
    · simp [List.filter_cons_of_pos h, h]
    · simp only [Bool.not_eq_true] at h; simp [h, ih]

theorem BagRep.any {l s : List T} (h : BagRep less l s) (x : T) : l.any (like less x) = s.any (like less x) := by
  rw [any_eq_filter, any_eq_filter, h.keeps]

theorem filter_eraseP_other (p q : T → Bool) (h : ∀ y, p y = true → q y = false) (l : List T) : (l.eraseP p).filter q = l.filter q := by
  induction l with
  | nil => rfl
  | cons x l ih =>
    by_cases hx : p x = true
    · rw [List.eraseP_cons_of_pos hx, List.filter_cons_of_neg (by simp [h x hx])]
    · rw [List.eraseP_cons_of_neg hx, List.filter_cons, List.filter_cons, ih]

theorem filter_eraseP_same (p : T → Bool) (l : List T) : (l.eraseP p).filter p = (l.filter p).tail := by
  induction l with
  | nil => rfl
  | cons x l ih =>
    by_cases hx : p x = true
    · rw [List.eraseP_cons_of_pos hx, List.filter_cons_of_pos hx, List.tail_cons]
    · rw [List.eraseP_cons_of_neg hx, List.filter_cons_of_neg hx, List.filter_cons_of_neg hx, ih]

theorem BagRep.eraseP (hw : StrictWeak less) {l s : List T} (h : BagRep less l s) (x : T) :
    BagRep less (l.eraseP (like less x)) (s.eraseP (like less x)) := by
  refine ⟨h.sorted.sublist List.eraseP_sublist, fun e => ?_⟩
  by_cases he : like less x e = true
  · rw [← like_congr hw he, filter_eraseP_same, filter_eraseP_same, h.keeps]
  · have : ∀ y, like less x y = true → like less e y = false := by
      intro y hy
      rw [← Bool.not_eq_true]
      intro hey
      rw [like_congr hw hy, ← like_congr hw hey] at he
      exact he (like_self hw e)
    rw [filter_eraseP_other _ _ this, filter_eraseP_other _ _ this, h.keeps]

/-- Turned round. -/
theorem BagRep.eraseLast (hw : StrictWeak less) {l s : List T} (h : BagRep less l s) (x : T) :
    BagRep less (Stl4go.eraseLast (like less x) l) (Stl4go.eraseLast (like less x) s) := by
  unfold Stl4go.eraseLast
  refine ⟨List.pairwise_reverse.2 ((List.pairwise_reverse.2 (by simpa using h.sorted)).sublist List.eraseP_sublist), fun e => ?_⟩
  rw [List.filter_reverse, List.filter_reverse]
  congr 1
  by_cases he : like less x e = true
  · rw [← like_congr hw he, filter_eraseP_same, filter_eraseP_same, List.filter_reverse, List.filter_reverse, h.keeps]
  · have : ∀ y, like less x y = true → like less e y = false := by
      intro y hy
      rw [← Bool.not_eq_true]
      intro hey
      rw [like_congr hw hy, ← like_congr hw hey] at he
      exact he (like_self hw e)
    rw [filter_eraseP_other _ _ this, filter_eraseP_other _ _ this, List.filter_reverse, List.filter_reverse, h.keeps]

theorem BagRep.filter {l s : List T} (h : BagRep less l s) (p : T → Bool) : BagRep less (l.filter p) (s.filter p) := by
  refine ⟨h.sorted.sublist List.filter_sublist, fun e => ?_⟩
  rw [List.filter_filter, List.filter_filter]
  have := congrArg (List.filter p) (h.keeps e)
  rw [List.filter_filter, List.filter_filter] at this
  simpa [Bool.and_comm] using this

theorem eraseP_at (p : T → Bool) (s : List T) (i : Nat) (hi : i < s.length) (h1 : p s[i] = true) (h2 : ∀ y ∈ s.take i, p y = false) :
    s.eraseP p = s.take i ++ s.drop (i + 1) := by
  have e : s = s.take i ++ s[i] :: s.drop (i + 1) := by rw [List.getElem_cons_drop, List.take_append_drop]
  conv => lhs; rw [e]
  rw [List.eraseP_append_right _ (fun y hy => by simp [h2 y hy]), List.eraseP_cons_of_pos h1]

theorem eraseLast_at (p : T → Bool) (s : List T) (i : Nat) (hi : i < s.length) (h1 : p s[i] = true) (h2 : ∀ y ∈ s.drop (i + 1), p y = false) :
    eraseLast p s = s.take i ++ s.drop (i + 1) := by
  have e : s = s.take i ++ s[i] :: s.drop (i + 1) := by rw [List.getElem_cons_drop, List.take_append_drop]
  unfold eraseLast
  conv => lhs; rw [e]
  rw [List.reverse_append, List.reverse_cons, List.append_assoc, List.eraseP_append_right _ (fun y hy => by simp [h2 y (by simpa using hy)]),
    List.singleton_append, List.eraseP_cons_of_pos h1, List.reverse_append, List.reverse_reverse, List.reverse_reverse]

/-! ## The bounds cut the list -/

theorem lower_cut (hw : StrictWeak less) {s : List T} (hs : s.Pairwise (fun x y => less y x = false)) (v : T) :
    ∃ r, lowerBoundFunc s v less = .ret r ∧ r ≤ s.length ∧ (∀ y ∈ s.take r, less y v = true) ∧ (∀ y ∈ s.drop r, less y v = false) := by
  obtain ⟨r, h1, h2, h3, h4⟩ := C01_lowerBoundFunc_partition less hw s ((sortedBy_pairwise _).2 hs) v
  refine ⟨r, h1, h2, ?_, ?_⟩
  · intro y hy
    obtain ⟨j, hj, rfl⟩ := List.getElem_of_mem hy
    rw [List.getElem_take]
    exact h3 j _ (by simp at hj; omega)
  · intro y hy
    obtain ⟨j, hj, rfl⟩ := List.getElem_of_mem hy
    rw [List.getElem_drop]
    exact h4 _ _ (by omega)

theorem upper_cut (hw : StrictWeak less) {s : List T} (hs : s.Pairwise (fun x y => less y x = false)) (v : T) :
    ∃ r, upperBoundFunc s v less = .ret r ∧ r ≤ s.length ∧ (∀ y ∈ s.take r, less v y = false) ∧ (∀ y ∈ s.drop r, less v y = true) := by
  obtain ⟨r, h1, h2, h3, h4⟩ := C02_upperBoundFunc_partition less hw s ((sortedBy_pairwise _).2 hs) v
  refine ⟨r, h1, h2, ?_, ?_⟩
  · intro y hy
    obtain ⟨j, hj, rfl⟩ := List.getElem_of_mem hy
    rw [List.getElem_take]
    exact h3 j _ (by simp at hj; omega)
  · intro y hy
    obtain ⟨j, hj, rfl⟩ := List.getElem_of_mem hy
    rw [List.getElem_drop]
    exact h4 _ _ (by omega)

/-- The part before a cut is what has `p`, the part from it on what has not. -/
theorem cut_filter (p : T → Bool) (s : List T) (r : Nat) (h1 : ∀ y ∈ s.take r, p y = true) (h2 : ∀ y ∈ s.drop r, p y = false) :
    s.filter p = s.take r ∧ s.filter (fun y => !p y) = s.drop r := by
  constructor
  · conv => lhs; rw [← List.take_append_drop r s]
    rw [List.filter_append, List.filter_eq_self.2 h1, List.filter_eq_nil_iff.2 (fun y hy => by simp [h2 y hy]), List.append_nil]
  · conv => lhs; rw [← List.take_append_drop r s]
    rw [List.filter_append, List.filter_eq_nil_iff.2 (fun y hy => by simp [h1 y hy]), List.filter_eq_self.2 (fun y hy => by simp [h2 y hy]), List.nil_append]

/-- The bounds of `a` and `b` in the order of the list, and what is between them. -/
theorem between_cut (hw : StrictWeak less) {s : List T} (hs : s.Pairwise (fun x y => less y x = false)) (a b : T) (hab : less b a = false) :
    ∃ l u, lowerBoundFunc s a less = .ret l ∧ upperBoundFunc s b less = .ret u ∧ l ≤ u ∧ u ≤ s.length
      ∧ s.take l ++ s.drop u = s.filter (fun y => less y a || less b y) ∧ u - l = (s.filter (fun y => !less y a && !less b y)).length := by
  obtain ⟨l, e1, l1, l2, l3⟩ := lower_cut hw hs a
  obtain ⟨u, e2, u1, u2, u3⟩ := upper_cut hw hs b
  have hlu : l ≤ u := by
    by_cases h : l ≤ u
    · exact h
    · have hu : u < s.length := by omega
      have h1 := l2 s[u] (by rw [List.mem_take_iff_getElem]; exact ⟨u, by omega, rfl⟩)
      have h2 := u3 s[u] (by rw [List.mem_drop_iff_getElem]; exact ⟨0, by omega, by simp⟩)
      rw [hw.trans _ _ _ h2 h1] at hab
      exact absurd hab (by simp)
  have e : s = s.take l ++ ((s.drop l).take (u - l) ++ s.drop u) := by
    have : s.drop u = (s.drop l).drop (u - l) := by rw [List.drop_drop]; congr 1; omega
    rw [this, List.take_append_drop, List.take_append_drop]
  have hm : ∀ y ∈ (s.drop l).take (u - l), less y a = false ∧ less b y = false := by
    intro y hy
    refine ⟨l3 y (List.mem_of_mem_take hy), u2 y ?_⟩
    have : (s.drop l).take (u - l) = (s.take u).drop l := by rw [List.drop_take]
    rw [this] at hy
    exact List.mem_of_mem_drop hy
  have hl : ∀ y ∈ s.take l, less y a = true := l2
  have hu : ∀ y ∈ s.drop u, less b y = true := u3
  refine ⟨l, u, e1, e2, hlu, u1, ?_, ?_⟩
  · conv => rhs; rw [e]
    rw [List.filter_append, List.filter_append, List.filter_eq_self.2 (fun y hy => by simp [hl y hy]),
      List.filter_eq_nil_iff.2 (fun y hy => by simp [hm y hy]), List.filter_eq_self.2 (fun y hy => by simp [hu y hy]), List.nil_append]
  · conv => rhs; rw [e]
    rw [List.filter_append, List.filter_append, List.filter_eq_nil_iff.2 (fun y hy => by simp [hl y hy]),
      List.filter_eq_self.2 (fun y hy => by simp [hm y hy]), List.filter_eq_nil_iff.2 (fun y hy => by simp [hu y hy])]
    simp; omega

/-- The search finds the first of the equivalent elements. -/
theorem search_cut (hw : StrictWeak less) {s : List T} (hs : s.Pairwise (fun x y => less y x = false)) (x : T) :
    (∃ i, ∃ hi : i < s.length, binarySearchFunc s x less = .ret ((i : Int), true) ∧ like less x s[i] = true ∧ ∀ y ∈ s.take i, like less x y = false)
      ∨ (binarySearchFunc s x less = .ret (-1, false) ∧ ∀ y ∈ s, like less x y = false) := by
  have key : ∀ y, Equiv less y x ↔ like less x y = true := fun y => by rw [like_iff]; exact And.comm
  rcases C03_binarySearchFunc less hw s ((sortedBy_pairwise _).2 hs) x with ⟨i, hi, h1, h2, h3⟩ | ⟨h1, h2⟩
  · refine .inl ⟨i, hi, h1, (key _).1 h2, fun y hy => ?_⟩
    obtain ⟨j, hj, rfl⟩ := List.getElem_of_mem hy
    rw [List.getElem_take, ← Bool.not_eq_true]
    exact fun h => h3 j (by simp at hj; omega) (by simp at hj; omega) ((key _).2 h)
  · refine .inr ⟨h1, fun y hy => ?_⟩
    obtain ⟨j, hj, rfl⟩ := List.getElem_of_mem hy
    rw [← Bool.not_eq_true]
    exact fun h => h2 j hj ((key _).2 h)

theorem BagRep.insert (hw : StrictWeak less) {l s : List T} (h : BagRep less l s) (x : T) (r : Nat) (h1 : ∀ y ∈ s.take r, less x y = false)
    (h2 : ∀ y ∈ s.drop r, less x y = true) : BagRep less (l ++ [x]) (s.take r ++ [x] ++ s.drop r) := by
  have hs : (s.take r ++ s.drop r).Pairwise (fun x y => less y x = false) := by rw [List.take_append_drop]; exact h.sorted
  rw [List.pairwise_append] at hs
  refine ⟨?_, fun e => ?_⟩
  · rw [List.append_assoc, List.pairwise_append]
    refine ⟨hs.1, ?_, ?_⟩
    · rw [List.singleton_append, List.pairwise_cons]
      exact ⟨fun y hy => hw.asymm (h2 y hy), hs.2.1⟩
    · intro a ha b hb
      rcases List.mem_append.1 hb with hb | hb
      · simp only [List.mem_singleton] at hb
        subst hb
        exact h1 a ha
      · exact hs.2.2 a ha b hb
  · conv => rhs; rw [List.filter_append, ← h.keeps e, ← List.take_append_drop r s]
    rw [List.filter_append, List.filter_append, List.filter_append, List.append_assoc, List.append_assoc]
    congr 1
    by_cases he : like less e x = true
    · have : (s.drop r).filter (like less e) = [] := by
        rw [List.filter_eq_nil_iff]
        intro y hy
        have := h2 y hy
        rw [like_congr hw he]
        simp [like, this]
      rw [this, List.append_nil, List.nil_append]
    · rw [List.filter_cons_of_neg he]
      simp

theorem BagRep.many (hw : StrictWeak less) {l s : List T} (h : BagRep less l s) (xs : List T) :
    BagRep less (l ++ xs) (sortedStably less (s ++ xs)) := by
  refine ⟨(BagRep.of hw _).sorted, fun e => ?_⟩
  rw [(BagRep.of hw _).keeps, List.filter_append, List.filter_append, h.keeps]

/-! ## One operation -/

variable [GoZero T] (grow : Nat → Nat → Nat) {stable : Nat → SortProg} {m : Mem T} {v : Sl}

theorem Vec.insert1_step (x : T) (n : Nat) (h : v.WF m) (hn : n ≤ v.len) :
    ∃ m' v', Vec.insert1 (n : Int) x ⟨m, v⟩ = .ok () ⟨m', v'⟩ ∧ VStep m v m' v' ((v.read m).take n ++ [x] ++ (v.read m).drop n) := by
  obtain ⟨y, m1, e1, hF, ho, hr, hlx, _⟩ := Sl.lit_fresh [x] m
  have k := VStep.keep h hF.top hF.keep
  have h1 := h.1
  have h2 := h.2
  obtain ⟨m', v', e, st, _⟩ := Vec.insert_step n y k.wf hF.wf (by omega) (fun hle => .inr (by omega))
  rw [k.read, hr] at st
  exact ⟨m', v', by simp [Vec.insert1, GoM.bind_def, VS.on_ok e1, e], by simpa using k.trans st⟩

theorem Vec.remove_step (n : Nat) (h : v.WF m) (hn : n < v.len) :
    ∃ m' v', Vec.remove grow (n : Int) ⟨m, v⟩ = .ok () ⟨m', v'⟩ ∧ VStep m v m' v' ((v.read m).take n ++ (v.read m).drop (n + 1)) := by
  obtain ⟨m', v', e, st, _⟩ := Vec.removeRange_step grow n (n + 1) h (by omega) (by omega)
  exact ⟨m', v', e, st⟩

/-- The elements are rearranged after the step. -/
theorem VStep.rearrange {m1 m2 : Mem T} {v1 : Sl} {s : List T} (h : VStep m v m1 v1 s) (ho : OnlyIn m1 m2 v1) : VStep m v m2 v1 (v1.read m2) := by
  have h1 := h.wf.1
  refine ⟨⟨h1, by rw [ho.1]; exact h.wf.2⟩, rfl, by rw [ho.1]; exact h.top, h.place, fun k hk hd => ?_, fun hc k hk1 hk2 => ?_⟩
  · rw [ho.2 k, h.frame k hk hd]
    rcases h.place with ⟨p1, p2⟩ | p | p <;> omega
  · rw [ho.2 _ (by omega)]
    exact h.clean hc k hk1 hk2

theorem SV.exec_step (hst : StableContract stable) (hw : StrictWeak less) (op : BagOp T) (hv : op.Valid less) {l : List T} (h : v.WF m)
    (hr : BagRep less l (v.read m)) :
    ∃ m' v' s', SV.exec grow stable less ⟨m, v⟩ op = ((SBag.step less l op).1, ⟨m', v'⟩) ∧ VStep m v m' v' s' ∧ BagRep less (SBag.step less l op).2 s' := by
  have hlen : v.len = (v.read m).length := by simp
  have same : VStep m v m v (v.read m) := VStep.refl h
  have hs := hr.sorted
  have hany : ∀ x, l.any (like less x) = (v.read m).any (like less x) := hr.any
  have hsort := hr.eq hw
  cases op with
  | add x =>
    obtain ⟨r, e, r1, r2, r3⟩ := upper_cut hw hs x
    obtain ⟨m', v', e', st⟩ := Vec.insert1_step x r h (by omega)
    refine ⟨m', v', _, ?_, st, hr.insert hw x r r2 r3⟩
    simp [SV.exec, VS.observe, SV.add, GoM.bind_def, VS.look, e, e', SBag.step]
  | addNew x =>
    simp only [SBag.step, hany]
    rcases search_cut hw hs x with ⟨i, hi, e, h1, h2⟩ | ⟨e, h1⟩
    · have ha : (v.read m).any (like less x) = true := List.any_eq_true.2 ⟨_, List.getElem_mem hi, h1⟩
      rw [if_pos ha]
      refine ⟨m, v, _, ?_, same, hr⟩
      simp [SV.exec, VS.observe, SV.addNew, GoM.bind_def, VS.look, e]
    · have ha : ¬ (v.read m).any (like less x) = true := by simpa using h1
      rw [if_neg ha]
      obtain ⟨r, e', r1, r2, r3⟩ := lower_cut hw hs x
      obtain ⟨m', v', e2, st⟩ := Vec.insert1_step x r h (by omega)
      refine ⟨m', v', _, ?_, st, hr.insert hw x r (fun y hy => hw.asymm (r2 y hy)) (fun y hy => ?_)⟩
      · simp [SV.exec, VS.observe, SV.addNew, GoM.bind_def, VS.look, e, VS.look, e', e2]
      · have g1 := h1 y (List.mem_of_mem_drop hy)
        have g2 := r3 y hy
        simpa [like, g2] using g1
  | addMany xs =>
    obtain ⟨x, m1, e1, hF, ho, hrx, hlx, _⟩ := Sl.lit_fresh xs m
    have k := VStep.keep h hF.top hF.keep
    obtain ⟨m2, v2, e2, st2, _⟩ := Vec.append_step grow x k.wf
    obtain ⟨m3, e3, r3, o3⟩ := C63_stableSortFunc hst less hw v2 m2
    rw [k.read, hrx] at st2
    rw [st2.read] at r3
    refine ⟨m3, v2, _, ?_, (k.trans st2).rearrange o3, ?_⟩
    · simp [SV.exec, VS.observe, SV.addMany, GoM.bind_def, VS.on_ok e1, e2, VS.recv, VS.on_ok e3, SBag.step]
    · rw [r3]
      exact hr.many hw xs
  | dropOldest x =>
    simp only [SBag.step, hany]
    have hrep := hr.eraseP hw x
    rcases search_cut hw hs x with ⟨i, hi, e, h1, h2⟩ | ⟨e, h1⟩
    · have ha : (v.read m).any (like less x) = true := List.any_eq_true.2 ⟨_, List.getElem_mem hi, h1⟩
      obtain ⟨m', v', e', st⟩ := Vec.remove_step grow i h (by omega)
      rw [← eraseP_at _ _ i hi h1 h2] at st
      refine ⟨m', v', _, ?_, st, hrep⟩
      simp [SV.exec, VS.observe, SV.dropOldest, GoM.bind_def, VS.look, e, e', ha]
    · have ha : (v.read m).any (like less x) = false := by simpa using h1
      rw [List.eraseP_of_forall_not (l := v.read m) (fun y hy => by simp [h1 y hy])] at hrep
      refine ⟨m, v, _, ?_, same, hrep⟩
      simp [SV.exec, VS.observe, SV.dropOldest, GoM.bind_def, VS.look, e, ha]
  | dropNewest x =>
    simp only [SBag.step, hany]
    have hrep := hr.eraseLast hw x
    rcases search_cut hw hs x with ⟨i, hi, e, h1, h2⟩ | ⟨e, h1⟩
    · have ha : (v.read m).any (like less x) = true := List.any_eq_true.2 ⟨_, List.getElem_mem hi, h1⟩
      obtain ⟨u, e2, u1, u2, u3⟩ := upper_cut hw hs x
      have hiu : i < u := by
        by_cases hc : i < u
        · exact hc
        · have := u3 (v.read m)[i] (by rw [List.mem_drop_iff_getElem]; exact ⟨i - u, by omega, by congr 1; omega⟩)
          rw [((like_iff _ _).1 h1).1] at this
          exact absurd this (by simp)
      obtain ⟨n, rfl⟩ : ∃ n, u = n + 1 := ⟨u - 1, by omega⟩
      obtain ⟨m', v', e', st⟩ := Vec.remove_step grow n h (by omega)
      have hlast : like less x (v.read m)[n] = true := by
        rw [like_iff]
        refine ⟨u2 _ (by rw [List.mem_take_iff_getElem]; exact ⟨n, by omega, rfl⟩), ?_⟩
        by_cases hin : i = n
        · subst hin; exact ((like_iff _ _).1 h1).2
        · have := List.pairwise_iff_getElem.1 hs i n hi (by omega) (by omega)
          exact hw.negTrans this ((like_iff _ _).1 h1).2
      rw [← eraseLast_at _ _ n (by omega) hlast (fun y hy => by simp [like, u3 y hy])] at st
      refine ⟨m', v', _, ?_, st, hrep⟩
      simp only [SV.exec, VS.observe, SV.dropNewest, GoM.bind_def, VS.look, e, VS.look, e2, if_true, ha]
      rw [show ((n + 1 : Nat) : Int) - 1 = (n : Int) by omega, e']
      rfl
    · have ha : (v.read m).any (like less x) = false := by simpa using h1
      unfold Stl4go.eraseLast at hrep
      rw [List.eraseP_of_forall_not (l := (v.read m).reverse) (fun y hy => by simp [h1 y (by simpa using hy)]), List.reverse_reverse] at hrep
      refine ⟨m, v, _, ?_, same, hrep⟩
      simp [SV.exec, VS.observe, SV.dropNewest, GoM.bind_def, VS.look, e, ha]
  | dropBetween a b =>
    obtain ⟨p, u, e1, e2, h1, h2, h3, h4⟩ := between_cut hw hs a b hv
    obtain ⟨m', v', e, st, _⟩ := Vec.removeRange_step grow p u h h1 (by omega)
    rw [h3] at st
    refine ⟨m', v', _, ?_, st, hr.filter _⟩
    have hc : (l.filter (fun y => !less y a && !less b y)).length = (u : Int) - (p : Int) := by
      rw [← ((hr.perm hw).filter _).length_eq, ← h4]; omega
    simp [SV.exec, VS.observe, SV.dropBetween, GoM.bind_def, VS.look, e1, VS.look, e2, e, SBag.step, hc]
  | find x =>
    have hf : l.find? (like less x) = (v.read m).find? (like less x) := by rw [← List.head?_filter, ← List.head?_filter, hr.keeps]
    simp only [SBag.step, hf]
    rcases search_cut hw hs x with ⟨i, hi, e, h1, h2⟩ | ⟨e, h1⟩
    · have : (v.read m).find? (like less x) = some (v.read m)[i] := by
        rw [List.find?_eq_some_iff_getElem]
        refine ⟨h1, i, hi, rfl, fun j hj => ?_⟩
        rw [h2 _ (by rw [List.mem_take_iff_getElem]; exact ⟨j, by omega, rfl⟩)]
        rfl
      rw [this]
      refine ⟨m, v, _, ?_, same, hr⟩
      simp [SV.exec, VS.observe, SV.find, GoM.bind_def, VS.look, e, Vec.at_ok i (m := m) (v := v) hi]
    · have : (v.read m).find? (like less x) = none := by rw [List.find?_eq_none]; intro y hy; simp [h1 y hy]
      rw [this]
      refine ⟨m, v, _, ?_, same, hr⟩
      simp [SV.exec, VS.observe, SV.find, GoM.bind_def, VS.look, e]
  | count x =>
    obtain ⟨p, u, e1, e2, h1, h2, h3, h4⟩ := between_cut hw hs x x (hw.irrefl x)
    refine ⟨m, v, _, ?_, same, hr⟩
    have hc : (l.filter (like less x)).length = (u : Int) - (p : Int) := by
      rw [← hr.keeps]
      have : (fun y => !less y x && !less x y) = like less x := by funext y; simp [like, Bool.and_comm]
      rw [this] at h4
      omega
    simp [SV.exec, VS.observe, SV.count, GoM.bind_def, VS.look, e1, VS.look, e2, SBag.step, hc]
  | rank x =>
    obtain ⟨p, e, h1, h2, h3⟩ := lower_cut hw hs x
    refine ⟨m, v, _, ?_, same, hr⟩
    have hc : (l.filter (fun y => less y x)).length = p := by
      rw [← ((hr.perm hw).filter _).length_eq, (cut_filter (fun y => less y x) _ p h2 h3).1]
      simp; omega
    simp [SV.exec, VS.observe, SV.rank, GoM.bind_def, VS.look, e, SBag.step, hc]
  | nth i =>
    simp only [SBag.step, ← hsort]
    refine ⟨m, v, _, ?_, same, ?_⟩
    · by_cases hc : 0 ≤ i ∧ i < v.len
      · rw [dif_pos (by omega)]
        obtain ⟨n, rfl⟩ : ∃ n : Nat, i = n := ⟨i.toNat, by omega⟩
        simp [SV.exec, VS.observe, Vec.at_ok n (m := m) (v := v) (by omega)]
      · rw [dif_neg (by omega)]
        simp [SV.exec, VS.observe, Vec.at_panic i hc]
    · split <;> exact hr
  | popMin =>
    simp only [SBag.step, ← hsort]
    by_cases h0 : v.len = 0
    · have hn : v.read m = [] := List.eq_nil_of_length_eq_zero (by omega)
      refine ⟨m, v, _, ?_, same, ?_⟩
      · rw [hn]
        simp [SV.exec, VS.observe, SV.popMin, GoM.bind_def, Vec.at_panic 0 (m := m) (v := v) (by omega)]
      · rw [hn] at hr ⊢; exact hr
    · obtain ⟨x, s, hx⟩ : ∃ x s, v.read m = x :: s := by
        cases hc : v.read m with
        | nil => rw [hc] at hlen; simp at hlen; omega
        | cons x s => exact ⟨x, s, rfl⟩
      obtain ⟨m', v', e', st⟩ := Vec.remove_step grow 0 h (by omega)
      have ea := Vec.at_ok 0 (m := m) (v := v) (by omega)
      have hrep := hr.eraseP hw x
      rw [hx, List.eraseP_cons_of_pos (like_self hw x)] at hrep
      simp only [hx, List.take_zero, List.nil_append, List.drop_succ_cons, List.drop_zero] at st
      rw [hx]
      refine ⟨m', v', s, ?_, st, hrep⟩
      simp only [hx, List.getElem_cons_zero, Int.ofNat_zero] at ea e'
      simp [SV.exec, VS.observe, SV.popMin, GoM.bind_def, ea, e']
  | popMax =>
    simp only [SBag.step, ← hsort]
    by_cases h0 : v.len = 0
    · have hn : v.read m = [] := List.eq_nil_of_length_eq_zero (by omega)
      refine ⟨m, v, _, ?_, same, ?_⟩
      · rw [hn]
        simp [SV.exec, VS.observe, Vec.popBack_panic h0]
      · rw [hn] at hr ⊢; exact hr
    · obtain ⟨m', v', s', x, es, e, st, _⟩ := Vec.popBack_step h (by omega)
      have hrep := hr.eraseLast hw x
      rw [es] at hrep ⊢
      rw [(getLast?_split s' x).1]
      unfold Stl4go.eraseLast at hrep
      rw [List.reverse_append, List.reverse_singleton, List.singleton_append, List.eraseP_cons_of_pos (like_self hw x), List.reverse_reverse] at hrep
      exact ⟨m', v', s', by simp [SV.exec, VS.observe, e], st, hrep⟩
  | len =>
    refine ⟨m, v, _, ?_, same, hr⟩
    have : (l.length : Int) = v.len := by rw [hlen, (hr.perm hw).length_eq]
    simp [SV.exec, VS.observe, Vec.len, GoM.bind_def, GoM.pure_apply, SBag.step, this]
  | values =>
    refine ⟨m, v, _, ?_, same, hr⟩
    have := VIter.collect_all v m (v.len + 1) (by omega)
    simp only [SV.exec, SBag.step, ← hsort]
    simp [VS.observe, Vec.iterate, GoM.bind_def, GoM.pure_apply, VS.on_ok this]

/-! ## Histories -/

theorem SV.run_inv (hst : StableContract stable) (hw : StrictWeak less) {C : Prop} {F : Nat → Prop} {m0 : Mem T} (ops : List (Nat × BagOp T)) :
    ∀ {w : VWorld T} {s l : Nat → List T}, VWInv C F m0 w s → (∀ i, BagRep less (l i) (s i)) → (∀ o ∈ ops, o.2.Valid less) →
      (SV.run grow stable less w ops).1 = (SBag.after less l ops).1 ∧
      ∃ s', VWInv C F m0 (SV.run grow stable less w ops).2 s' ∧ ∀ i, BagRep less ((SBag.after less l ops).2 i) (s' i) := by
  induction ops with
  | nil => intro w s l h hr _; exact ⟨rfl, s, h, hr⟩
  | cons o ops ih =>
    intro w s l h hr hv
    obtain ⟨i, op⟩ := o
    obtain ⟨m', v', s', e, st, hr'⟩ := SV.exec_step grow hst hw op (hv (i, op) (by simp)) (h.wf i) (l := l i) (by rw [h.read i]; exact hr i)
    have h2 := h.step i st
    obtain ⟨a, s'', b, c⟩ := ih (l := fun j => if j = i then (SBag.step less (l i) op).2 else l j) h2
      (fun j => by by_cases hj : j = i <;> simp [hj, hr', hr]) (fun o ho => hv o (by simp [ho]))
    simp only [SV.run, SBag.after, e]
    exact ⟨by rw [a], s'', b, c⟩

/-! ## The set in a sorted vector -/

omit [GoZero T] in
theorem strict_sorted (hw : StrictWeak less) {s : List T} (h : SSet.Sorted less s) : s.Pairwise (fun x y => less y x = false) :=
  List.Pairwise.imp (fun hab => hw.asymm hab) h

omit [GoZero T] in
theorem SSet.mem_like (x : T) (s : List T) : SSet.mem less x s = s.any (like less x) := rfl

omit [GoZero T] in
theorem SSet.add_cut (hw : StrictWeak less) {s : List T} (x : T) (hm : ∀ y ∈ s, like less x y = false) (r : Nat)
    (h1 : ∀ y ∈ s.take r, less y x = true) (h2 : ∀ y ∈ s.drop r, less y x = false) : SSet.add less x s = s.take r ++ [x] ++ s.drop r := by
  have hc := cut_filter (fun y => less y x) s r h1 h2
  have e : s.filter (fun y => less x y) = s.filter (fun y => !less y x) := by
    apply List.filter_congr
    intro y hy
    have g := hm y hy
    cases h3 : less y x with
    | true => simp [hw.asymm h3]
    | false => simpa [like, h3] using g
  have hn : SSet.mem less x s = false := by rw [SSet.mem_like]; simpa using hm
  simp [SSet.add, hn, hc.1, e, hc.2]

omit [GoZero T] in
theorem SSet.add_sorted (hw : StrictWeak less) {s : List T} (h : SSet.Sorted less s) (x : T) : SSet.Sorted less (SSet.add less x s) := by
  unfold SSet.add
  split
  · exact h
  · unfold SSet.Sorted at h ⊢
    rw [List.pairwise_append, List.pairwise_cons]
    refine ⟨h.sublist List.filter_sublist, ⟨fun y hy => (List.mem_filter.1 hy).2, h.sublist List.filter_sublist⟩, ?_⟩
    intro a ha b hb
    have ha := (List.mem_filter.1 ha).2
    rcases List.mem_cons.1 hb with rfl | hb
    · exact ha
    · exact hw.trans _ _ _ ha (List.mem_filter.1 hb).2

omit [GoZero T] in
theorem SSet.del_sorted {s : List T} (h : SSet.Sorted less s) (x : T) : SSet.Sorted less (SSet.del less x s) :=
  List.Pairwise.sublist List.filter_sublist h

omit [GoZero T] in
theorem SSet.del_eraseP (hw : StrictWeak less) (x : T) (s : List T) : SSet.Sorted less s → s.eraseP (like less x) = SSet.del less x s := by
  unfold SSet.del
  induction s with
  | nil => intro _; rfl
  | cons y s ih =>
    intro h
    unfold SSet.Sorted at h
    rw [List.pairwise_cons] at h
    by_cases hy : like less x y = true
    · have ⟨h1, h2⟩ := (like_iff x y).1 hy
      rw [List.eraseP_cons_of_pos hy, List.filter_cons_of_neg (by simp [h1, h2]), List.filter_eq_self.2]
      intro z hz
      rw [hw.lt_of_not_of_lt h2 (h.1 z hz)]
      rfl
    · rw [List.eraseP_cons_of_neg hy, ih h.2, List.filter_cons_of_pos]
      simp only [like, Bool.and_eq_true, Bool.not_eq_true'] at hy
      cases h1 : less x y <;> cases h2 : less y x <;> simp [h1, h2] at hy ⊢

theorem SV.addNew_set (hw : StrictWeak less) (x : T) (h : v.WF m) (hs : SSet.Sorted less (v.read m)) :
    ∃ m' v', SV.addNew less x ⟨m, v⟩ = .ok (!SSet.mem less x (v.read m)) ⟨m', v'⟩ ∧ v'.WF m' ∧ v'.read m' = SSet.add less x (v.read m) := by
  rcases search_cut hw (strict_sorted hw hs) x with ⟨i, hi, e, h1, h2⟩ | ⟨e, h1⟩
  · have ha : SSet.mem less x (v.read m) = true := by rw [SSet.mem_like]; exact List.any_eq_true.2 ⟨_, List.getElem_mem hi, h1⟩
    refine ⟨m, v, by simp [SV.addNew, GoM.bind_def, VS.look, e, ha], h, by simp [SSet.add, ha]⟩
  · have ha : SSet.mem less x (v.read m) = false := by rw [SSet.mem_like]; simpa using h1
    obtain ⟨r, e', r1, r2, r3⟩ := lower_cut hw (strict_sorted hw hs) x
    obtain ⟨m', v', e2, st⟩ := Vec.insert1_step x r h (by simpa using r1)
    refine ⟨m', v', by simp [SV.addNew, GoM.bind_def, VS.look, e, e', e2, ha], st.wf, ?_⟩
    rw [SSet.add_cut hw x h1 r r2 r3, st.read]

theorem SV.dropOldest_set (hw : StrictWeak less) (x : T) (h : v.WF m) (hs : SSet.Sorted less (v.read m)) :
    ∃ m' v', SV.dropOldest grow less x ⟨m, v⟩ = .ok (SSet.mem less x (v.read m)) ⟨m', v'⟩ ∧ v'.WF m' ∧ v'.read m' = SSet.del less x (v.read m) := by
  rcases search_cut hw (strict_sorted hw hs) x with ⟨i, hi, e, h1, h2⟩ | ⟨e, h1⟩
  · have ha : SSet.mem less x (v.read m) = true := by rw [SSet.mem_like]; exact List.any_eq_true.2 ⟨_, List.getElem_mem hi, h1⟩
    obtain ⟨m', v', e', st⟩ := Vec.remove_step grow i h (by simpa using hi)
    rw [← eraseP_at _ _ i hi h1 h2, SSet.del_eraseP hw x _ hs] at st
    exact ⟨m', v', by simp [SV.dropOldest, GoM.bind_def, VS.look, e, e', ha], st.wf, st.read⟩
  · have ha : SSet.mem less x (v.read m) = false := by rw [SSet.mem_like]; simpa using h1
    refine ⟨m, v, by simp [SV.dropOldest, GoM.bind_def, VS.look, e, ha], h, ?_⟩
    rw [← SSet.del_eraseP hw x _ hs, List.eraseP_of_forall_not (fun y hy => by simp [h1 y hy])]

theorem SV.addNewN_set (hw : StrictWeak less) (xs : List T) : ∀ {m : Mem T} {v : Sl}, v.WF m → SSet.Sorted less (v.read m) →
    ∃ m' v', SV.addNewN less xs ⟨m, v⟩ = .ok ((SSet.addN less xs (v.read m)).2 : Int) ⟨m', v'⟩ ∧ v'.WF m' ∧
      v'.read m' = (SSet.addN less xs (v.read m)).1 ∧ SSet.Sorted less (v'.read m') := by
  induction xs with
  | nil => intro m v h hs; exact ⟨m, v, rfl, h, rfl, hs⟩
  | cons x xs ih =>
    intro m v h hs
    obtain ⟨m1, v1, e1, w1, r1⟩ := SV.addNew_set hw x h hs
    obtain ⟨m2, v2, e2, w2, r2, s2⟩ := ih w1 (by rw [r1]; exact SSet.add_sorted hw hs x)
    rw [r1] at e2 r2
    refine ⟨m2, v2, ?_, w2, r2, s2⟩
    simp only [SV.addNewN, GoM.bind_def, e1, e2, SSet.addN, GoM.pure_apply]
    cases SSet.mem less x (v.read m) <;> simp

theorem SV.dropN_set (hw : StrictWeak less) (xs : List T) : ∀ {m : Mem T} {v : Sl}, v.WF m → SSet.Sorted less (v.read m) →
    ∃ m' v', SV.dropN grow less xs ⟨m, v⟩ = .ok ((SSet.delN less xs (v.read m)).2 : Int) ⟨m', v'⟩ ∧ v'.WF m' ∧
      v'.read m' = (SSet.delN less xs (v.read m)).1 ∧ SSet.Sorted less (v'.read m') := by
  induction xs with
  | nil => intro m v h hs; exact ⟨m, v, rfl, h, rfl, hs⟩
  | cons x xs ih =>
    intro m v h hs
    obtain ⟨m1, v1, e1, w1, r1⟩ := SV.dropOldest_set grow hw x h hs
    obtain ⟨m2, v2, e2, w2, r2, s2⟩ := ih w1 (by rw [r1]; exact SSet.del_sorted hs x)
    rw [r1] at e2 r2
    refine ⟨m2, v2, ?_, w2, r2, s2⟩
    simp only [SV.dropN, GoM.bind_def, e1, e2, SSet.delN, GoM.pure_apply]
    cases SSet.mem less x (v.read m) <;> simp

omit [GoZero T] in
theorem SV.from_eq (i : Nat) (h : v.WF m) (hi : i ≤ v.len) : SV.from (i : Int) ⟨m, v⟩ = .ok ((v.read m).drop i) ⟨m, v⟩ := by
  have e1 := Sl.slice_ok v m i v.len hi h.1
  have e2 := VIter.collect_all { off := v.off + i, len := v.len - i, cap := v.cap - i } m (v.len + 1) (by simp; omega)
  have e3 : Sl.read m { off := v.off + i, len := v.len - i, cap := v.cap - i } = (v.read m).drop i := by
    rw [Sl.read_sub m v i (v.len - i) _ (by omega), List.take_of_length_le (by simp)]
  rw [e3] at e2
  simp [SV.from, Vec.len, Vec.iterateRange, GoM.bind_def, GoM.pure_apply, VS.recv, VS.on_ok e1, VS.on_ok e2]

theorem SV.setExec_step (hw : StrictWeak less) (op : SSOp T) (h : v.WF m) (hs : SSet.Sorted less (v.read m)) :
    ∃ m' v', SV.setExec grow less ⟨m, v⟩ op = (some (SSet.step less (v.read m) op).1, ⟨m', v'⟩) ∧ v'.WF m' ∧
      v'.read m' = (SSet.step less (v.read m) op).2 ∧ SSet.Sorted less (v'.read m') := by
  have hlen : v.len = (v.read m).length := by simp
  cases op with
  | insert _ k =>
    obtain ⟨m', v', e, w, r⟩ := SV.addNew_set hw k h hs
    exact ⟨m', v', by simp [SV.setExec, VS.observeS, e, SSet.step], w, r, by rw [r]; exact SSet.add_sorted hw hs k⟩
  | insertN ks =>
    obtain ⟨m', v', e, w, r, s⟩ := SV.addNewN_set hw (ks.map (·.2)) h hs
    exact ⟨m', v', by simp [SV.setExec, VS.observeS, e, SSet.step], w, r, s⟩
  | remove k =>
    obtain ⟨m', v', e, w, r⟩ := SV.dropOldest_set grow hw k h hs
    exact ⟨m', v', by simp [SV.setExec, VS.observeS, e, SSet.step], w, r, by rw [r]; exact SSet.del_sorted hs k⟩
  | removeN ks =>
    obtain ⟨m', v', e, w, r, s⟩ := SV.dropN_set grow hw ks h hs
    exact ⟨m', v', by simp [SV.setExec, VS.observeS, e, SSet.step], w, r, s⟩
  | clear =>
    obtain ⟨m', e, st, _⟩ := Vec.clear_step h
    exact ⟨m', _, by simp [SV.setExec, VS.observeS, e, SSet.step], st.wf, st.read, by rw [st.read]; exact List.Pairwise.nil⟩
  | has k =>
    refine ⟨m, v, ?_, h, rfl, hs⟩
    rcases search_cut hw (strict_sorted hw hs) k with ⟨i, hi, e, h1, h2⟩ | ⟨e, h1⟩
    · have ha : SSet.mem less k (v.read m) = true := by rw [SSet.mem_like]; exact List.any_eq_true.2 ⟨_, List.getElem_mem hi, h1⟩
      simp [SV.setExec, VS.observeS, SV.has, GoM.bind_def, VS.look, e, SSet.step, ha]
    · have ha : SSet.mem less k (v.read m) = false := by rw [SSet.mem_like]; simpa using h1
      simp [SV.setExec, VS.observeS, SV.has, GoM.bind_def, VS.look, e, SSet.step, ha]
  | len => exact ⟨m, v, by simp [SV.setExec, VS.observeS, Vec.len, GoM.bind_def, GoM.pure_apply, SSet.step], h, rfl, hs⟩
  | isEmpty =>
    refine ⟨m, v, ?_, h, rfl, hs⟩
    have : (v.read m).isEmpty = (v.len == 0) := by rw [hlen]; cases v.read m <;> simp
    simp [SV.setExec, VS.observeS, Vec.isEmpty, GoM.bind_def, GoM.pure_apply, SSet.step, this]
  | keys =>
    refine ⟨m, v, ?_, h, rfl, hs⟩
    have := SV.from_eq 0 h (Nat.zero_le _)
    simp only [Int.ofNat_zero, List.drop_zero] at this
    simp [SV.setExec, VS.observeS, this, SSet.step]
  | lowerBound k =>
    refine ⟨m, v, ?_, h, rfl, hs⟩
    obtain ⟨r, e, r1, r2, r3⟩ := lower_cut hw (strict_sorted hw hs) k
    simp [SV.setExec, VS.observeS, GoM.bind_def, VS.look, e, SV.from_eq r h (by omega), SSet.step, (cut_filter (fun y => less y k) _ r r2 r3).2]
  | upperBound k =>
    refine ⟨m, v, ?_, h, rfl, hs⟩
    obtain ⟨r, e, r1, r2, r3⟩ := upper_cut hw (strict_sorted hw hs) k
    have := (cut_filter (fun y => !less k y) (v.read m) r (fun y hy => by simp [r2 y hy]) (fun y hy => by simp [r3 y hy])).2
    simp only [Bool.not_not] at this
    simp [SV.setExec, VS.observeS, GoM.bind_def, VS.look, e, SV.from_eq r h (by omega), SSet.step, this]

theorem SV.setRun_eq (hw : StrictWeak less) (ops : List (SSOp T)) : ∀ {m : Mem T} {v : Sl}, v.WF m → SSet.Sorted less (v.read m) →
    (SV.setRun grow less ⟨m, v⟩ ops).1 = (SSet.run less (v.read m) ops).1.map some ∧
    Sl.read (SV.setRun grow less ⟨m, v⟩ ops).2.mem (SV.setRun grow less ⟨m, v⟩ ops).2.v = (SSet.run less (v.read m) ops).2 := by
  induction ops with
  | nil => intro m v _ _; exact ⟨rfl, rfl⟩
  | cons op ops ih =>
    intro m v h hs
    obtain ⟨m', v', e, w, r, s⟩ := SV.setExec_step grow hw op h hs
    obtain ⟨a, b⟩ := ih w s
    rw [r] at a b
    simp only [SV.setRun, e, SSet.run, List.map_cons]
    exact ⟨by rw [a], b⟩

end Stl4go
