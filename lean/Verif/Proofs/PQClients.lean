import Verif.Spec.PQClients
import Verif.Proofs.PriorityQueue
/-! # Lemmas for C164, C165 -/
namespace Stl4go
variable {T : Type}

/-- A queue in order. -/
structure PQ.Good (pq : PQ T) (less : T → T → Bool) : Prop where
  order : pq.order = less
  heap : IsHeap less pq.heap

theorem PQ.Good.push {less : T → T → Bool} (hw : StrictWeak less) {pq : PQ T} (g : pq.Good less) (v : T) :
    ∃ pq', pq.push v = .ret pq' ∧ pq'.Good less ∧ pq'.heap.Perm (v :: pq.heap) := by
  obtain ⟨h', e, p, H⟩ := pushHeapFunc_spec hw pq.heap v g.heap
  refine ⟨{ pq with heap := h' }, ?_, ⟨g.order, H⟩, p⟩
  rw [PQ.push_eq, g.order, e]; rfl

theorem PQ.Good.pop {less : T → T → Bool} (hw : StrictWeak less) {pq : PQ T} (g : pq.Good less) (hne : pq.heap ≠ []) :
    ∃ x pq', pq.pop = .ret (x, pq') ∧ pq'.Good less ∧ (x :: pq'.heap).Perm pq.heap ∧ (∀ y ∈ pq.heap, less y x = false) ∧ pq.top = .ret x := by
  cases hh : pq.heap with
  | nil => exact absurd hh hne
  | cons x xs =>
    have H := g.heap
    rw [hh] at H
    obtain ⟨h', e1, e2, e3⟩ := popHeapFunc_spec hw (x :: xs) (by simp) H
    refine ⟨x, { pq with heap := h' }, ?_, ⟨g.order, e3⟩, e2, H.root_min hw, ?_⟩
    · rw [PQ.pop_eq, g.order, hh, e1]; rfl
    · simp [PQ.top, hh, idx]

theorem PQ.Good.new (less : T → T → Bool) : (newPriorityQueueFunc less).Good less :=
  ⟨rfl, by intro i hi; simp [newPriorityQueueFunc] at hi⟩

/-! ## The greatest of a stream -/

/-- After `seen`: `rest` was thrown away, and there was none to throw away while there was room. -/
structure KeptGreatest (less : T → T → Bool) (k : Nat) (seen : List T) (heap rest : List T) : Prop where
  perm : (heap ++ rest).Perm seen
  room : heap.length ≤ k
  full : rest ≠ [] → heap.length = k
  best : ∀ l ∈ heap, ∀ r ∈ rest, less l r = false

theorem keepGreatest_spec {less : T → T → Bool} (hw : StrictWeak less) (k : Nat) : ∀ (xs : List T) (pq : PQ T) (seen rest : List T), pq.Good less →
    KeptGreatest less k seen pq.heap rest → ∃ pq' rest', keepGreatest k pq xs = .ret pq' ∧ pq'.Good less ∧ KeptGreatest less k (xs.reverse ++ seen) pq'.heap rest'
  | [], pq, seen, rest, g, h => ⟨pq, rest, rfl, g, h⟩
  | x :: xs, pq, seen, rest, g, h => by
    obtain ⟨q, e1, g1, p1⟩ := g.push hw x
    have hl := p1.length_eq
    simp only [List.length_cons] at hl
    simp only [List.reverse_cons, List.append_assoc, List.singleton_append]
    by_cases hk : q.len > k
    · have hqk : q.heap.length > k := hk
      obtain ⟨y, q', e2, g2, p2, min2, _⟩ := g1.pop hw (by intro h0; rw [h0] at hqk; simp at hqk)
      have hl2 := p2.length_eq
      simp only [List.length_cons] at hl2
      have hr := h.room
      obtain ⟨pq', rest', e3, g3, h3⟩ := keepGreatest_spec hw k xs q' (x :: seen) (y :: rest) g2
        { perm := by
            refine List.perm_middle.trans ?_
            rw [← List.cons_append]
            exact ((p2.trans p1).append_right rest).trans (h.perm.cons x)
          room := by omega
          full := fun _ => by omega
          best := by
            intro l hl r hr
            have hl' : l ∈ q.heap := p2.mem_iff.1 (List.mem_cons_of_mem _ hl)
            rcases List.mem_cons.1 hr with rfl | hr
            · exact min2 l hl'
            · have hy : y ∈ x :: pq.heap := p1.mem_iff.1 (p2.mem_iff.1 List.mem_cons_self)
              rcases List.mem_cons.1 hy with rfl | hy
              · have := (p2.trans p1).cons_inv
                exact h.best l (this.mem_iff.1 hl) r hr
              · exact hw.negTrans (min2 l hl') (h.best y hy r hr) }
      refine ⟨pq', rest', ?_, g3, h3⟩
      simp only [keepGreatest, e1, Outcome.ret_bind, if_pos hk, e2, e3]
    · have hqk : q.heap.length ≤ k := Nat.le_of_not_lt hk
      have hrest : rest = [] := by
        cases rest with
        | nil => rfl
        | cons r rs => have := h.full (by simp); omega
      subst hrest
      obtain ⟨pq', rest', e3, g3, h3⟩ := keepGreatest_spec hw k xs q (x :: seen) [] g1
        { perm := by
            have := h.perm
            rw [List.append_nil] at this ⊢
            exact p1.trans (this.cons x)
          room := hqk
          full := fun h => absurd rfl h
          best := fun _ _ r hr => by cases hr }
      refine ⟨pq', rest', ?_, g3, h3⟩
      simp only [keepGreatest, e1, Outcome.ret_bind, if_neg hk, e3]

/-! ## Merging -/

theorem fst_weak {less : T → T → Bool} (hw : StrictWeak less) : StrictWeak (fun a b : T × List T => less a.1 b.1) where
  irrefl a := hw.irrefl a.1
  trans a b c := hw.trans a.1 b.1 c.1
  incomp a b c := hw.incomp a.1 b.1 c.1

/-- The elements that are in the queue. -/
def pending (h : List (T × List T)) : List T := (h.map (fun a => a.1 :: a.2)).flatten

theorem pending_perm {h h' : List (T × List T)} (p : h.Perm h') : (pending h).Perm (pending h') := (p.map _).flatten

theorem mergeStart_spec {less : T → T → Bool} (hw : StrictWeak less) : ∀ (ls : List (List T)) (pq : PQ (T × List T)),
    pq.Good (fun a b => less a.1 b.1) → (∀ a ∈ pq.heap, (a.1 :: a.2).Pairwise (fun x y => less y x = false)) →
    (∀ l ∈ ls, l.Pairwise (fun x y => less y x = false)) →
    ∃ pq', mergeStart pq ls = .ret pq' ∧ pq'.Good (fun a b => less a.1 b.1) ∧ (∀ a ∈ pq'.heap, (a.1 :: a.2).Pairwise (fun x y => less y x = false)) ∧
      (pending pq'.heap).Perm (ls.flatten ++ pending pq.heap)
  | [], pq, g, hs, _ => ⟨pq, rfl, g, hs, .refl _⟩
  | [] :: ls, pq, g, hs, hl => by
    obtain ⟨pq', e, h⟩ := mergeStart_spec hw ls pq g hs (fun l h => hl l (List.mem_cons_of_mem _ h))
    exact ⟨pq', e, h⟩
  | (x :: xs) :: ls, pq, g, hs, hl => by
    obtain ⟨q, e1, g1, p1⟩ := g.push (fst_weak hw) (x, xs)
    obtain ⟨pq', e, g2, s2, p2⟩ := mergeStart_spec hw ls q g1 (by
      intro a ha
      rcases List.mem_cons.1 (p1.mem_iff.1 ha) with rfl | ha
      · exact hl _ List.mem_cons_self
      · exact hs a ha) (fun l h => hl l (List.mem_cons_of_mem _ h))
    refine ⟨pq', by simp only [mergeStart, e1, Outcome.ret_bind, e], g2, s2, p2.trans ?_⟩
    have : (pending q.heap).Perm ((x :: xs) ++ pending pq.heap) := pending_perm p1
    refine (this.append_left ls.flatten).trans ?_
    rw [List.flatten_cons, List.append_assoc]
    refine (List.perm_append_comm_assoc _ _ _)

theorem mergeLoop_spec {less : T → T → Bool} (hw : StrictWeak less) : ∀ (fuel : Nat) (pq : PQ (T × List T)), (pending pq.heap).length < fuel →
    pq.Good (fun a b => less a.1 b.1) → (∀ a ∈ pq.heap, (a.1 :: a.2).Pairwise (fun x y => less y x = false)) →
    ∃ out, mergeLoop fuel pq = .ret out ∧ out.Perm (pending pq.heap) ∧ out.Pairwise (fun x y => less y x = false)
  | 0, pq, hf, _, _ => by omega
  | fuel + 1, pq, hf, g, hs => by
    cases hh : pq.heap with
    | nil => exact ⟨[], by simp [mergeLoop, PQ.isEmpty, hh], .refl _, .nil⟩
    | cons a0 as =>
      have hne : pq.isEmpty = false := by simp [PQ.isEmpty, hh]
      obtain ⟨⟨x, xs⟩, q, e1, g1, p1, min1, _⟩ := g.pop (fst_weak hw) (by rw [hh]; exact List.cons_ne_nil _ _)
      have hx := hs _ (p1.mem_iff.1 List.mem_cons_self)
      have hsq : ∀ a ∈ q.heap, (a.1 :: a.2).Pairwise (fun x y => less y x = false) := fun a ha => hs a (p1.mem_iff.1 (List.mem_cons_of_mem _ ha))
      have hp : (x :: (xs ++ pending q.heap)).Perm (pending pq.heap) := pending_perm p1
      -- nothing in the queue is less than the first element
      have hleast : ∀ y ∈ pending pq.heap, less y x = false := by
        intro y hy
        obtain ⟨l, hl, hyl⟩ := List.mem_flatten.1 hy
        obtain ⟨a, ha, rfl⟩ := List.mem_map.1 hl
        have h1 := min1 a ha
        rcases List.mem_cons.1 hyl with rfl | hyl
        · exact h1
        · exact hw.negTrans ((List.pairwise_cons.1 (hs a ha)).1 y hyl) h1
      have hq' : ∃ q', mergeBack q xs = .ret q' ∧ q'.Good (fun a b => less a.1 b.1) ∧
          (∀ a ∈ q'.heap, (a.1 :: a.2).Pairwise (fun x y => less y x = false)) ∧ (pending q'.heap).Perm (xs ++ pending q.heap) := by
        cases xs with
        | nil => exact ⟨q, rfl, g1, hsq, .refl _⟩
        | cons y ys =>
          obtain ⟨q', e2, g2, p2⟩ := g1.push (fst_weak hw) (y, ys)
          refine ⟨q', e2, g2, fun a ha => ?_, pending_perm p2⟩
          rcases List.mem_cons.1 (p2.mem_iff.1 ha) with rfl | ha
          · exact (List.pairwise_cons.1 hx).2
          · exact hsq a ha
      obtain ⟨q', e2, g2, s2, p2⟩ := hq'
      have hlen := hp.length_eq
      have hlen2 := p2.length_eq
      simp only [List.length_cons] at hlen
      obtain ⟨out, e3, p3, s3⟩ := mergeLoop_spec hw fuel q' (by omega) g2 s2
      refine ⟨x :: out, ?_, ?_, List.pairwise_cons.2 ⟨fun y hy => ?_, s3⟩⟩
      · simp only [mergeLoop, hne, if_false, e1, Outcome.ret_bind, e2, e3, Outcome.pure_eq, Bool.false_eq_true]
      · rw [hh] at hp
        exact ((p3.trans p2).cons x).trans hp
      · exact hleast y (hp.mem_iff.1 (List.mem_cons_of_mem _ ((p3.trans p2).mem_iff.1 hy)))

/-! ## The median -/

theorem flip_weak {less : T → T → Bool} (hw : StrictWeak less) : StrictWeak (fun a b => less b a) where
  irrefl a := hw.irrefl a
  trans a b c h1 h2 := hw.trans c b a h2 h1
  incomp a b c h1 h2 h3 h4 := hw.incomp c b a h3 h4 h1 h2

structure Halves (less : T → T → Bool) (seen lo hi : List T) : Prop where
  perm : (lo ++ hi).Perm seen
  sizes : lo.length = hi.length ∨ lo.length = hi.length + 1
  apart : ∀ a ∈ lo, ∀ b ∈ hi, less b a = false

theorem medianStep_spec {less : T → T → Bool} (hw : StrictWeak less) (lo hi : PQ T) (x : T) (seen : List T)
    (gl : lo.Good (fun a b => less b a)) (gh : hi.Good less) (h : Halves less seen lo.heap hi.heap) :
    ∃ lo' hi', medianStep lo hi x = .ret (lo', hi') ∧ lo'.Good (fun a b => less b a) ∧ hi'.Good less ∧ Halves less (x :: seen) lo'.heap hi'.heap := by
  have hf := flip_weak hw
  obtain ⟨l1, e1, g1, p1⟩ := gl.push hf x
  have hl1 := p1.length_eq
  obtain ⟨y, l2, e2, g2, p2, m2, _⟩ := g1.pop hf (by intro h0; rw [h0] at hl1; simp at hl1)
  have hl2 := p2.length_eq
  obtain ⟨h1, e3, g3, p3⟩ := gh.push hw y
  have hl3 := p3.length_eq
  simp only [List.length_cons] at hl1 hl2 hl3
  -- everything below is apart
  have hap : ∀ a ∈ l2.heap, ∀ b ∈ h1.heap, less b a = false := by
    intro a ha b hb
    have ha1 : a ∈ l1.heap := p2.mem_iff.1 (List.mem_cons_of_mem _ ha)
    rcases List.mem_cons.1 (p3.mem_iff.1 hb) with rfl | hb
    · exact m2 a ha1
    · have hy : y ∈ x :: lo.heap := p1.mem_iff.1 (p2.mem_iff.1 List.mem_cons_self)
      rcases List.mem_cons.1 hy with rfl | hy
      · exact h.apart a ((p2.trans p1).cons_inv.mem_iff.1 ha) b hb
      · exact hw.negTrans (h.apart y hy b hb) (m2 a ha1)
  have hperm : (l2.heap ++ h1.heap).Perm (x :: seen) := by
    refine (p3.append_left l2.heap).trans (List.perm_middle.trans ?_)
    rw [← List.cons_append]
    exact ((p2.trans p1).append_right _).trans (h.perm.cons x)
  have hs := h.sizes
  by_cases hgt : h1.len > l2.len
  · have hgt' : h1.heap.length > l2.heap.length := hgt
    obtain ⟨z, h2, e4, g4, p4, m4, _⟩ := g3.pop hw (by intro h0; rw [h0] at hl3; simp at hl3)
    obtain ⟨l3, e5, g5, p5⟩ := g2.push hf z
    have hl4 := p4.length_eq
    have hl5 := p5.length_eq
    simp only [List.length_cons] at hl4 hl5
    refine ⟨l3, h2, ?_, g5, g4, ?_, by omega, ?_⟩
    · simp only [medianStep, e1, Outcome.ret_bind, e2, e3, if_pos hgt, e4, e5, Outcome.pure_eq]
    · refine (p5.append_right _).trans ?_
      rw [List.cons_append]
      exact (List.perm_middle.symm.trans (p4.append_left _)).trans hperm
    · intro a ha b hb
      have hb1 : b ∈ h1.heap := p4.mem_iff.1 (List.mem_cons_of_mem _ hb)
      rcases List.mem_cons.1 (p5.mem_iff.1 ha) with rfl | ha
      · exact m4 b hb1
      · exact hap a ha b hb1
  · have hgt' : ¬ h1.heap.length > l2.heap.length := hgt
    refine ⟨l2, h1, ?_, g2, g3, hperm, by omega, hap⟩
    simp only [medianStep, e1, Outcome.ret_bind, e2, e3, if_neg hgt, Outcome.pure_eq]

theorem medianRun_spec {less : T → T → Bool} (hw : StrictWeak less) : ∀ (xs : List T) (lo hi : PQ T) (seen : List T),
    lo.Good (fun a b => less b a) → hi.Good less → Halves less seen lo.heap hi.heap →
    ∃ lo' hi', medianRun lo hi xs = .ret (lo', hi') ∧ lo'.Good (fun a b => less b a) ∧ hi'.Good less ∧ Halves less (xs.reverse ++ seen) lo'.heap hi'.heap
  | [], lo, hi, seen, gl, gh, h => ⟨lo, hi, rfl, gl, gh, h⟩
  | x :: xs, lo, hi, seen, gl, gh, h => by
    obtain ⟨l1, h1, e1, g1, g2, h2⟩ := medianStep_spec hw lo hi x seen gl gh h
    obtain ⟨l', h', e, g⟩ := medianRun_spec hw xs l1 h1 (x :: seen) g1 g2 h2
    refine ⟨l', h', by simp only [medianRun, e1, Outcome.ret_bind, e], ?_⟩
    simpa using g

/-- Putting `x` in place of an element. -/
theorem swap_in_perm (x : T) : ∀ (h : List T) (i : Nat) (hi : i < h.length), (h[i] :: h.set i x).Perm (x :: h)
  | y :: h, 0, _ => List.Perm.swap _ _ _
  | y :: h, i + 1, hi => ((List.Perm.swap _ _ _).trans ((swap_in_perm x h i (by simpa using hi)).cons y)).trans (List.Perm.swap _ _ _)

end Stl4go
