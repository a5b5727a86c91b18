import Verif.Model.PriorityQueue
import Verif.Spec.PriorityQueue
import Verif.Proofs.HeapApi
namespace Stl4go
variable {T : Type}

/-- The order a queue uses. -/
def PQ.order (pq : PQ T) : T → T → Bool :=
  match pq.impl with
  | .ordered ord => ord.lt
  | .func less => less

/-- Execution of one client operation. A panicking `Top`/`Pop` leaves the queue as it was: `popMinHeap`/`popHeapFunc` assign
`*heap` last (`/repo/heap.go:49,149`). -/
def PQ.exec (pq : PQ T) : PQOp T → PQObs T × PQ T
  | .push v => match pq.push v with
    | .ret pq' => (.unit, pq')
    | .panic => (.panicked, pq)
    | .diverge => (.hung, pq)
  | .pop => match pq.pop with
    | .ret (r, pq') => (.val r, pq')
    | .panic => (.panicked, pq)
    | .diverge => (.hung, pq)
  | .top => match pq.top with
    | .ret r => (.val r, pq)
    | .panic => (.panicked, pq)
    | .diverge => (.hung, pq)
  | .clear => (.unit, pq.clear)
  | .len => (.num pq.len, pq)
  | .isEmpty => (.flag pq.isEmpty, pq)

/-- Execution of a client history. -/
def PQ.execAll (pq : PQ T) : List (PQOp T) → List (PQObs T) × PQ T
  | [] => ([], pq)
  | op :: ops =>
    let (ob, pq') := pq.exec op
    let (obs, pq'') := PQ.execAll pq' ops
    (ob :: obs, pq'')

theorem PQ.push_eq (pq : PQ T) (v : T) :
    pq.push v = (pushHeapFunc pq.heap v pq.order >>= fun h => .ret { pq with heap := h }) := by
  cases pq with
  | mk heap impl => cases impl with
    | ordered ord => simp only [PQ.push, PQ.order, pushMinHeap_eq]; rfl
    | func less => rfl

theorem PQ.pop_eq (pq : PQ T) :
    pq.pop = (popHeapFunc pq.heap pq.order >>= fun p => .ret (p.1, { pq with heap := p.2 })) := by
  cases pq with
  | mk heap impl => cases impl with
    | ordered ord => simp only [PQ.pop, PQ.order, popMinHeap_eq]; rfl
    | func less => rfl

theorem PQ.exec_step (pq : PQ T) (hw : StrictWeak pq.order) (H : IsHeap pq.order pq.heap) (op : PQOp T) :
    PQStep pq.order pq.heap op (pq.exec op).1 (pq.exec op).2.heap ∧
      (pq.exec op).2.order = pq.order ∧ IsHeap pq.order (pq.exec op).2.heap := by
  cases op with
  | push v =>
    obtain ⟨h', e1, e2, e3⟩ := pushHeapFunc_spec hw pq.heap v H
    simp only [PQ.exec, PQ.push_eq, e1, Outcome.ret_bind]
    exact ⟨.push _ _ _ e2, rfl, e3⟩
  | pop =>
    obtain ⟨heap, impl⟩ := pq
    cases heap with
    | nil =>
      have e : PQ.exec ⟨[], impl⟩ .pop = (.panicked, ⟨[], impl⟩) := by
        simp only [PQ.exec, PQ.pop_eq, popHeapFunc_nil, Outcome.panic_bind]
      rw [e]
      exact ⟨.popEmpty, rfl, by intro i hi; simp at hi⟩
    | cons x xs =>
      obtain ⟨h', e1, e2, e3⟩ := popHeapFunc_spec hw (x :: xs) (by simp) H
      simp only [PQ.exec, PQ.pop_eq, e1, Outcome.ret_bind]
      exact ⟨.pop _ _ _ e2.symm (H.root_min hw), rfl, e3⟩
  | top =>
    obtain ⟨heap, impl⟩ := pq
    cases heap with
    | nil => exact ⟨.topEmpty, rfl, by intro i hi; cases hi⟩
    | cons x xs => exact ⟨.top _ _ (by simp) (H.root_min hw), rfl, H⟩
  | clear =>
    simp only [PQ.exec, PQ.clear, List.take_zero]
    exact ⟨.clear _, rfl, by intro i hi; simp at hi⟩
  | len => exact ⟨.len _, rfl, H⟩
  | isEmpty =>
    refine ⟨?_, rfl, H⟩
    have : pq.isEmpty = decide (pq.heap = []) := by
      simp only [PQ.isEmpty]; cases pq.heap <;> simp
    simp only [PQ.exec, this]
    exact .isEmpty _

theorem PQ.execAll_run (pq : PQ T) (hw : StrictWeak pq.order) (H : IsHeap pq.order pq.heap) (ops : List (PQOp T)) :
    PQRun pq.order pq.heap ops (pq.execAll ops).1 (pq.execAll ops).2.heap := by
  induction ops generalizing pq with
  | nil => exact .nil _
  | cons op ops ih =>
    obtain ⟨h1, h2, h3⟩ := pq.exec_step hw H op
    have := ih (pq.exec op).2 (by rw [h2]; exact hw) (by rw [h2]; exact h3)
    rw [h2] at this
    exact .cons _ _ _ _ _ _ _ h1 this

theorem PQ.drain_spec (n : Nat) (pq : PQ T) (hw : StrictWeak pq.order) (H : IsHeap pq.order pq.heap)
    (hn : pq.heap.length < n) :
    ∃ xs, pq.drain n = .ret xs ∧ xs.Perm pq.heap ∧ xs.Pairwise (fun a b => pq.order b a = false) := by
  induction n generalizing pq with
  | zero => omega
  | succ n ih =>
    cases hh : pq.heap with
    | nil => exact ⟨[], by simp [PQ.drain, PQ.isEmpty, hh], List.Perm.refl _, List.Pairwise.nil⟩
    | cons x xs =>
      rw [hh] at H hn
      obtain ⟨h', e1, e2, e3⟩ := popHeapFunc_spec hw (x :: xs) (by simp) H
      have hl := e2.length_eq
      simp only [List.getElem_cons_zero] at e1 e2 hl
      simp only [List.length_cons] at hl hn
      obtain ⟨ys, g1, g2, g3⟩ := ih { pq with heap := h' } hw e3 (by simp only; omega)
      refine ⟨x :: ys, ?_, ?_, ?_⟩
      · simp [PQ.drain, PQ.isEmpty, hh, PQ.pop_eq, e1, g1]
      · exact (List.Perm.cons x g2).trans e2
      · refine List.Pairwise.cons ?_ g3
        intro y hy
        refine H.root_min hw y (e2.mem_iff.1 (List.mem_cons_of_mem _ (g2.mem_iff.1 hy)))

theorem sortedBy_of_pairwise {less : T → T → Bool} {xs : List T} (h : xs.Pairwise (fun a b => less b a = false)) :
    SortedBy less xs := by
  intro i j hi hj hij
  exact List.pairwise_iff_getElem.1 h i j hi hj hij

end Stl4go
