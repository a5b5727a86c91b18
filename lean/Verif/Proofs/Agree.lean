import Verif.Props.Sort
import Verif.Props.BinarySearch
import Verif.Props.Lookup
import Verif.Props.Compare
import Verif.Props.Transform
import Verif.Props.PriorityQueue
import Verif.Props.Heap
import Verif.Props.SkipListSet
import Verif.Props.BuiltinSet
/-! # Lemmas for C137: the parts of the library agree -/
namespace Stl4go
variable {T : Type}

section
variable [GoOrd T] [LawfulGoOrd T]

omit [LawfulGoOrd T] in
theorem count_cons (x : T) (a : List T) (v : T) : count (x :: a) v = (if GoEq.eq x v then 1 else 0) + count a v := by
  rw [C70_count, C70_count, List.filter_cons]
  split <;> simp <;> omega

omit [LawfulGoOrd T] in
theorem count_perm {a b : List T} (h : a.Perm b) (v : T) : count a v = count b v := by
  rw [C70_count, C70_count]; exact (h.filter _).length_eq

omit [LawfulGoOrd T] in
theorem count_pos {a : List T} {x v : T} (hx : x ∈ a) (h : GoEq.eq x v = true) : 0 < count a v := by
  rw [C70_count]
  exact List.length_pos_of_mem (List.mem_filter.mpr ⟨hx, h⟩)

omit [LawfulGoOrd T] in
theorem mem_of_count {a : List T} {v : T} (h : 0 < count a v) : ∃ x ∈ a, GoEq.eq x v = true := by
  rw [C70_count] at h
  obtain ⟨x, hx⟩ := List.exists_mem_of_length_pos h
  exact ⟨x, List.mem_filter.mp hx⟩

/-- Ascending lists with the same numbers of each element are equal. -/
theorem eqSeq_of_counts : ∀ (a b : List T), a.Pairwise (fun x y => GoOrd.lt y x = false) → b.Pairwise (fun x y => GoOrd.lt y x = false) →
    (∀ v, count a v = count b v) → EqSeq a b := by
  intro a
  induction a with
  | nil =>
    intro b _ _ hc
    cases b with
    | nil => exact .nil
    | cons y b =>
      have := hc y
      have hp : 0 < count (y :: b) y := count_pos (by simp) (LawfulGoEq.refl y)
      have h0 : count ([] : List T) y = 0 := rfl
      omega
  | cons x a ih =>
    intro b ha hb hc
    cases b with
    | nil =>
      have := hc x
      have hp : 0 < count (x :: a) x := count_pos (by simp) (LawfulGoEq.refl x)
      have h0 : count ([] : List T) x = 0 := rfl
      omega
    | cons y b =>
      have head : ∀ (x y : T) (a b : List T), (y :: b).Pairwise (fun x y => GoOrd.lt y x = false) →
          (∀ v, count (x :: a) v = count (y :: b) v) → GoOrd.lt x y = false := by
        intro x y a b hb hc
        have hp : 0 < count (y :: b) x := by rw [← hc x]; exact count_pos (by simp) (LawfulGoEq.refl x)
        obtain ⟨z, hz, hzx⟩ := mem_of_count hp
        have hzx := (LawfulGoOrd.eq_iff z x).1 hzx
        rcases List.mem_cons.mp hz with rfl | hz
        · exact hzx.2
        · exact LawfulGoOrd.weak.negTrans hzx.2 ((List.pairwise_cons.mp hb).1 z hz)
      have hxy : GoEq.eq x y = true := (LawfulGoOrd.eq_iff x y).2 ⟨head x y a b hb hc, head y x b a ha (fun v => (hc v).symm)⟩
      refine .cons hxy (ih b (List.pairwise_cons.mp ha).2 (List.pairwise_cons.mp hb).2 fun v => ?_)
      have := hc v
      rw [count_cons, count_cons, geq_congr hxy v] at this
      omega

theorem counts_of_eqSeq {a b : List T} (h : EqSeq a b) (v : T) : count a v = count b v := by
  induction h with
  | nil => rfl
  | cons hxy _ ih => rw [count_cons, count_cons, geq_congr hxy v, ih]

theorem eqSeq_of_perm {a b : List T} (ha : SortedBy GoOrd.lt a) (hb : SortedBy GoOrd.lt b) (h : a.Perm b) : EqSeq a b :=
  eqSeq_of_counts a b ((sortedBy_pairwise a).1 ha) ((sortedBy_pairwise b).1 hb) (count_perm h)

omit [LawfulGoOrd T] in
theorem equal_iff (a b : List T) : equal a b = .ret true ↔ EqSeq a b := by
  obtain ⟨r, h1, h2⟩ := C65_equal a b
  rw [h1, ← h2]
  simp

theorem count_distinct {a : List T} (h : a.Pairwise (fun x y => GoEq.eq x y = false)) (v : T) :
    count a v = if a.any (fun x => GoEq.eq v x) then 1 else 0 := by
  induction a with
  | nil => rfl
  | cons x a ih =>
    rw [List.pairwise_cons] at h
    rw [count_cons, ih h.2, List.any_cons, geq_symm v x]
    cases hx : GoEq.eq x v with
    | false => simp
    | true =>
      have : a.any (fun x => GoEq.eq v x) = false := by
        rw [List.any_eq_false]
        intro y hy hvy
        rw [← geq_congr hx y, h.1 y hy] at hvy
        cases hvy
      simp [this]

theorem any_geq_congr {u v : T} (h : GoEq.eq u v = true) (a : List T) : a.any (fun x => GoEq.eq u x) = a.any (fun x => GoEq.eq v x) := by
  congr 1
  funext x
  exact geq_congr h x

theorem SSet.mem_lt (k : T) (s : List T) : SSet.mem GoOrd.lt k s = s.any (fun x => GoEq.eq k x) := by
  rw [SSet.mem]
  congr 1
  funext x
  rw [Bool.eq_iff_iff, LawfulGoOrd.eq_iff]
  simp

theorem SSet.mem_add (k v : T) (s : List T) : (SSet.add GoOrd.lt k s).any (fun x => GoEq.eq v x) = (GoEq.eq v k || s.any (fun x => GoEq.eq v x)) := by
  have sp := C31_spec_is_set (LawfulGoOrd.weak (T := T)) s k v
  simp only [SSet.mem_lt] at sp
  cases h : GoEq.eq v k with
  | true => rw [any_geq_congr h, sp.2.2.1]; rfl
  | false =>
    rw [sp.2.2.2 ?_]
    · rfl
    · rcases Bool.eq_false_or_eq_true (GoOrd.lt k v || GoOrd.lt v k) with h' | h'
      · exact h'
      · simp only [Bool.or_eq_false_iff] at h'
        rw [(LawfulGoOrd.eq_iff v k).2 ⟨h'.2, h'.1⟩] at h
        cases h

theorem SSet.mem_addN (v : T) (ks : List T) : ∀ s : List T,
    (SSet.addN GoOrd.lt ks s).1.any (fun x => GoEq.eq v x) = (s.any (fun x => GoEq.eq v x) || ks.any (fun x => GoEq.eq v x)) := by
  induction ks with
  | nil => intro s; simp [SSet.addN]
  | cons k ks ih =>
    intro s
    rw [SSet.addN, ih, SSet.mem_add, List.any_cons]
    cases GoEq.eq v k <;> cases s.any (fun x => GoEq.eq v x) <;> simp

omit [LawfulGoOrd T] in
theorem count_zero_iff (a : List T) (v : T) : count a v = 0 ↔ ∀ x ∈ a, GoEq.eq x v = false := by
  rw [C70_count, List.length_eq_zero_iff, List.filter_eq_nil_iff]
  simp

omit [LawfulGoOrd T] in
theorem find_flag (a : List T) (v : T) : (find a v).2 = decide (0 < count a v) := by
  rcases C69_find a v with ⟨i, hi, e, h, _⟩ | ⟨e, h⟩
  · rw [e]
    simpa using count_pos (List.getElem_mem hi) h
  · rw [e, (count_zero_iff a v).2 h]
    simp

end

end Stl4go
