import Verif.Spec.DListCursor
import Verif.Proofs.DListForEach
/-! # DList: iterators over lists that change -/
namespace Stl4go
variable {T σ : Type}

/-- A chain of nodes that ends at `hd`. -/
def Runs (h : List (DNode T)) (hd : Nat) : List Nat → Prop
  | [] => True
  | x :: t => nx h x = some (t ++ [hd]).head? ∧ Runs h hd t

theorem Runs.congr {h h' : List (DNode T)} {hd : Nat} : ∀ {R : List Nat}, (∀ x ∈ R, nx h' x = nx h x) → Runs h hd R → Runs h' hd R
  | [], _, _ => trivial
  | x :: _, h1, h2 => ⟨by rw [h1 x (by simp)]; exact h2.1, Runs.congr (fun y hy => h1 y (by simp [hy])) h2.2⟩

theorem Runs.of_lk {h : List (DNode T)} {hd : Nat} {A : List Nat} : ∀ {B : List Nat}, Lk h (A ++ B ++ [hd]) → Runs h hd B
  | [], _ => trivial
  | q :: B, L => by
    have e : A ++ q :: B ++ [hd] = A ++ q :: (B ++ [hd]) := by simp
    rw [e, Lk.append] at L
    refine ⟨?_, Runs.of_lk (A := A ++ [q]) (B := B) (by rw [List.append_assoc, List.append_assoc, List.singleton_append, Lk.append]; exact L)⟩
    cases hx : B ++ [hd] with
    | nil => simp at hx
    | cons f r => rw [hx] at L; exact L.2.1.1

/-- The iterator node `node` of a list with nodes `ids` stands on what `c` says; `R` are the nodes it may still visit that are not in the
list any more. -/
inductive CurIs (h : List (DNode T)) (l : DL) (ids : List Nat) : DCur T → Option Nat → List Nat → Prop
  | at {hd k node} (hhd : l.head = some hd) (hk : k ≤ ids.length) (hn : node = (ids ++ [hd])[k]?) : CurIs h l ids (.at k) node []
  | left {hd q R v rest} (hhd : l.head = some hd) (hr : Runs h hd (q :: R)) (hv : (q :: R).map (vl h) = (v :: rest).map some)
      (hf : ∀ x ∈ q :: R, x ∉ foot l ids ∧ x < h.length) (hnd : (q :: R).Nodup) : CurIs h l ids (.left v rest) (some q) (q :: R)
  | popped {hd q v} (hhd : l.head = some hd) (hn : nx h q = some none) (hv : vl h q = some v) (hf : q ∉ foot l ids ∧ q < h.length) :
      CurIs h l ids (.popped v) (some q) [q]
  | nil : CurIs h l ids .nil none []
  | dead {node} : CurIs h l ids .dead node []

/-- Nodes an iterator may still visit are not in its list. -/
theorem CurIs.out {h : List (DNode T)} {l : DL} {ids : List Nat} {c : DCur T} {node : Option Nat} {R : List Nat} (i : CurIs h l ids c node R) :
    ∀ x ∈ R, x ∉ foot l ids ∧ x < h.length := by
  cases i with
  | left _ _ _ hf _ => exact hf
  | popped _ _ _ hf => intro x hx; simp at hx; subst hx; exact hf
  | _ => simp

/-- Changes to nodes outside what the iterator may visit do not move it. -/
theorem CurIs.frame {h h' : List (DNode T)} {l : DL} {ids ft : List Nat} {c : DCur T} {node : Option Nat} {R : List Nat}
    (i : CurIs h l ids c node R) (f : DFrame h h' ft) (hd : ∀ x ∈ R, x ∉ ft) : CurIs h' l ids c node R := by
  cases i with
  | «at» hhd hk hn => exact .at hhd hk hn
  | left hhd hr hv hf hnd =>
    refine .left hhd (Runs.congr (fun x hx => (f.same x (hf x hx).2 (hd x hx)).1) hr) ?_
      (fun x hx => ⟨(hf x hx).1, Nat.lt_of_lt_of_le (hf x hx).2 f.mono⟩) hnd
    rw [← hv]; exact List.map_congr_left (fun x hx => (f.same x (hf x hx).2 (hd x hx)).2.2)
  | popped hhd hn hv hf =>
    obtain ⟨a, _, b⟩ := f.same _ hf.2 (hd _ (by simp))
    exact .popped hhd (by rw [a, hn]) (by rw [b, hv]) ⟨hf.1, Nat.lt_of_lt_of_le hf.2 f.mono⟩
  | nil => exact .nil
  | dead => exact .dead

/-- The same, when the list itself changes but keeps its head. -/
theorem CurIs.keep {h h' : List (DNode T)} {l l' : DL} {ids ids' : List Nat} {c : DCur T} {node : Option Nat} {R : List Nat}
    (i : CurIs h l ids c node R) (hat : ∀ k, c ≠ .at k) (f : DFrame h h' (foot l ids))
    (hs : ∀ q ∈ foot l' ids', q ∈ foot l ids ∨ h.length ≤ q) (hk : ∀ x, l.head = some x → l'.head = some x) : CurIs h' l' ids' c node R := by
  have hout : ∀ x, x ∉ foot l ids ∧ x < h.length → x ∉ foot l' ids' ∧ x < h'.length := by
    intro x hx
    refine ⟨fun hc => ?_, Nat.lt_of_lt_of_le hx.2 f.mono⟩
    rcases hs x hc with h1 | h1
    · exact hx.1 h1
    · omega
  cases i with
  | «at» => exact absurd rfl (hat _)
  | left hhd hr hv hf hnd =>
    refine .left (hk _ hhd) (Runs.congr (fun x hx => (f.same x (hf x hx).2 (hf x hx).1).1) hr) ?_ (fun x hx => hout x (hf x hx)) hnd
    rw [← hv]; exact List.map_congr_left (fun x hx => (f.same x (hf x hx).2 (hf x hx).1).2.2)
  | popped hhd hn hv hf =>
    obtain ⟨a, _, b⟩ := f.same _ hf.2 hf.1
    exact .popped (hk _ hhd) (by rw [a, hn]) (by rw [b, hv]) (hout _ hf)
  | nil => exact .nil
  | dead => exact .dead

theorem DMove.head {h h' : List (DNode T)} {l l' : DL} {ids ids' : List Nat} {op : DOp T} (m : DMove h h' l l' ids ids' op)
    (hm : ∀ vs, op ≠ .make vs) : ∀ x, l.head = some x → l'.head = some x := by
  intro x hx
  cases op with
  | make vs => exact absurd rfl (hm vs)
  | pushFront v => obtain ⟨_, hd, e, k⟩ := m; rw [e, k x hx]
  | pushBack v => obtain ⟨_, hd, e, k⟩ := m; rw [e, k x hx]
  | popFront => rw [m.2.2, hx]
  | tryPopFront => rw [m.2.2, hx]
  | popBack => rw [m.2.2, hx]
  | tryPopBack => rw [m.2.2, hx]
  | clear => rw [m.2.2, hx]
  | _ => rw [m.2.2, hx]

theorem not_foot_of_nodup {l : DL} {ids ids' : List Nat} {q : Nat} (hn : (foot l ids).Nodup) (hq : q ∈ ids) (hi : ∀ x ∈ ids', x ∈ ids ∧ x ≠ q)
    {l' : DL} (hh : l'.head = l.head) : q ∉ foot l' ids' := by
  intro hc
  simp only [foot, hh, List.mem_append] at hc
  rcases hc with hc | hc
  · exact (List.nodup_append.1 hn).2.2 q hc q hq rfl
  · exact (hi q hc).2 rfl

/-- Popping the first element. -/
theorem CurIs.popFront {h h' : List (DNode T)} {l l' : DL} {ids ids' : List Nat} {s : List T} {k : Nat} {node : Option Nat}
    {R : List Nat} (i : DInv h l ids s) (c : CurIs h l ids (.at k) node R) (f : DFrame h h' (foot l ids)) (e : ids' = ids.tail)
    (m : ∀ q, ids.head? = some q → nx h' q = some none ∧ vl h' q = vl h q) (hl : l'.head = l.head) :
    ∃ R', CurIs h' l' ids' (match s with | [] => .at k | v :: _ => if k = 0 then .popped v else .at (k - 1)) node R' ∧
      ∀ x ∈ R', x ∈ R ∨ x ∈ ids := by
  cases c with
  | «at» hhd hk hn =>
    cases s with
    | nil =>
      have := i.ids_nil; subst this; subst e
      exact ⟨[], .at (by rw [hl, hhd]) hk hn, by simp⟩
    | cons v s =>
      cases ids with
      | nil => have := i.length_ids; simp at this
      | cons q ids =>
        simp only [List.tail_cons] at e; subst e
        by_cases h0 : k = 0
        · subst h0
          obtain ⟨m1, m2⟩ := m q rfl
          have hq : q < h.length := i.bound q (by simp [foot])
          have hnd := (List.nodup_append.1 i.nodup).2.1
          simp only [if_true]
          have hn' : node = some q := by simpa using hn
          subst hn'
          refine ⟨[q], .popped (by rw [hl, hhd]) m1 (by rw [m2, i.cons_val]) ⟨?_, Nat.lt_of_lt_of_le hq f.mono⟩, by simp⟩
          exact not_foot_of_nodup i.nodup (by simp) (fun x hx => ⟨by simp [hx], by rintro rfl; exact (List.nodup_cons.1 hnd).1 hx⟩) hl
        · simp only [h0, if_false]
          refine ⟨[], .at (by rw [hl, hhd]) (by simp at hk; omega) ?_, by simp⟩
          obtain ⟨j, rfl⟩ : ∃ j, k = j + 1 := ⟨k - 1, by omega⟩
          simpa using hn

/-- Popping the last element. -/
theorem CurIs.popBack {h h' : List (DNode T)} {l l' : DL} {ids ids' : List Nat} {s : List T} {k : Nat} {node : Option Nat}
    {R : List Nat} (i : DInv h l ids s) (c : CurIs h l ids (.at k) node R) (f : DFrame h h' (foot l ids)) (e : ids' = ids.dropLast)
    (m : ∀ q, ids.getLast? = some q → nx h' q = some none ∧ vl h' q = vl h q) (hl : l'.head = l.head) :
    ∃ R', CurIs h' l' ids' (match s.getLast? with
      | none => .at k
      | some v => if k + 1 = s.length then .popped v else if k = s.length then .at (k - 1) else .at k) node R' ∧
      ∀ x ∈ R', x ∈ R ∨ x ∈ ids := by
  cases c with
  | @«at» hd _ _ hhd hk hn =>
    have hlen := i.length_ids
    by_cases hs : s = []
    · subst hs
      have := i.ids_nil; subst this; subst e
      exact ⟨[], .at (by rw [hl, hhd]) hk hn, by simp⟩
    · obtain ⟨s, v, rfl⟩ := exists_concat hs
      have hne : ids ≠ [] := by rintro rfl; simp at hlen
      obtain ⟨ids, q, rfl⟩ : ∃ ids' q, ids = ids' ++ [q] := ⟨_, _, (List.dropLast_concat_getLast hne).symm⟩
      rw [List.dropLast_concat] at e; subst e
      simp only [List.getLast?_concat]
      have hls : ids'.length = s.length := by simpa using hlen
      have hnd := List.nodup_append.1 (List.nodup_append.1 i.nodup).2.1
      by_cases h0 : k + 1 = (s ++ [v]).length
      · obtain ⟨m1, m2⟩ := m q (by simp)
        have hq : q < h.length := i.bound q (by simp [foot])
        have hk' : k = ids'.length := by simp at h0; omega
        have hn' : node = some q := by rw [hn, hk']; simp
        subst hn'
        simp only [h0, if_true]
        refine ⟨[q], .popped (by rw [hl, hhd]) m1 (by rw [m2, i.concat_val]) ⟨?_, Nat.lt_of_lt_of_le hq f.mono⟩, by simp⟩
        exact not_foot_of_nodup i.nodup (by simp) (fun x hx => ⟨by simp [hx], by rintro rfl; exact hnd.2.2 x hx x (by simp) rfl⟩) hl
      · simp only [h0, if_false]
        by_cases h1 : k = (s ++ [v]).length
        · simp only [h1, if_true]
          refine ⟨[], .at (by rw [hl, hhd]) (by simp; omega) ?_, by simp⟩
          have hk' : k = ids'.length + 1 := by simp at h1; omega
          have hk'' : (s ++ [v]).length - 1 = ids'.length := by simp; omega
          rw [hn, hk', hk'']
          simp
        · simp only [h1, if_false]
          have hk' : k < ids'.length := by simp at h0 h1 hk; omega
          refine ⟨[], .at (by rw [hl, hhd]) (by omega) ?_, by simp⟩
          rw [hn, List.append_assoc, List.getElem?_append_left hk', List.getElem?_append_left hk']

/-- An operation on the list moves an iterator as specified. -/
theorem CurIs.exec [GoZero T] {h h' : List (DNode T)} {l l' : DL} {ids ids' : List Nat} {s : List T} {op : DOp T} {c : DCur T} {node : Option Nat}
    {R : List Nat} (i : DInv h l ids s) (c0 : CurIs h l ids c node R) (f : DFrame h h' (foot l ids))
    (hs : ∀ q ∈ foot l' ids', q ∈ foot l ids ∨ h.length ≤ q) (m : DMove h h' l l' ids ids' op) :
    ∃ R', CurIs h' l' ids' (c.after s op) node R' ∧ ∀ x ∈ R', x ∈ R ∨ x ∈ ids := by
  by_cases hmk : ∃ vs, op = .make vs
  · obtain ⟨vs, rfl⟩ := hmk
    refine ⟨[], ?_, by simp⟩
    cases c <;> exact .dead
  have hmk' : ∀ vs, op ≠ .make vs := fun vs e => hmk ⟨vs, e⟩
  have hlen := i.length_ids
  have hkeep := m.head hmk'
  by_cases hat : ∃ k, c = .at k
  · obtain ⟨k, rfl⟩ := hat
    have c0' := c0
    cases c0 with
    | @«at» hd _ _ hhd hk hn =>
      cases op with
      | make vs => exact absurd rfl (hmk' vs)
      | pushFront v =>
        obtain ⟨⟨p, rfl⟩, _⟩ := m
        exact ⟨[], .at (hkeep _ hhd) (by simp; omega) (by simpa using hn), by simp⟩
      | pushBack v =>
        obtain ⟨⟨p, rfl⟩, _⟩ := m
        simp only [DCur.after]
        by_cases hc : k < s.length
        · simp only [hc, if_true]
          refine ⟨[], .at (hkeep _ hhd) (by simp; omega) ?_, by simp⟩
          rw [hn, List.append_assoc, List.getElem?_append_left (by omega), List.getElem?_append_left (by omega)]
        · simp only [hc, if_false]
          have hk' : k = ids.length := by omega
          refine ⟨[], .at (hkeep _ hhd) (by simp; omega) ?_, by simp⟩
          rw [hn, hk']
          simp
      | popFront => obtain ⟨m1, m2, m3⟩ := m; exact c0'.popFront i f m1 m2 m3
      | tryPopFront => obtain ⟨m1, m2, m3⟩ := m; exact c0'.popFront i f m1 m2 m3
      | popBack => obtain ⟨m1, m2, m3⟩ := m; exact c0'.popBack i f m1 m2 m3
      | tryPopBack => obtain ⟨m1, m2, m3⟩ := m; exact c0'.popBack i f m1 m2 m3
      | clear =>
        obtain ⟨rfl, m2, m3⟩ := m
        simp only [DCur.after]
        obtain ⟨A, B, rfl, hA⟩ : ∃ A B, ids = A ++ B ∧ A.length = k := ⟨ids.take k, ids.drop k, by simp, by simp; omega⟩
        have hvB : B.map (vl h) = (s.drop k).map some := by
          have hv := i.vals
          have := congrArg (List.drop k) hv
          rw [← List.map_drop, ← List.map_drop] at this
          rw [List.drop_append_of_le_length (by omega), List.drop_of_length_le (l := A) (by omega), List.nil_append] at this
          exact this
        have hlk := Runs.of_lk (A := hd :: A) (B := B) (by have := i.lk hd hhd; simpa using this)
        have hnd := i.nodup
        rw [foot_some _ hhd] at hnd
        have hdB : ∀ x ∈ B, x ≠ hd := by
          rintro x hx rfl; exact (List.nodup_cons.1 hnd).1 (by simp [hx])
        have hn' : node = (B ++ [hd]).head? := by
          rw [hn, List.append_assoc, List.getElem?_append_right (by omega), hA, Nat.sub_self]
          cases B <;> simp
        cases B with
        | nil =>
          have : s.drop k = [] := by simpa using hvB.symm
          simp only [this]
          exact ⟨[], .at (hkeep _ hhd) (by simp) (by simpa using hn'), by simp⟩
        | cons q B =>
          cases hsd : s.drop k with
          | nil => rw [hsd] at hvB; simp at hvB
          | cons v rest =>
            rw [hsd] at hvB
            simp only [List.cons_append, List.head?_cons] at hn'
            subst hn'
            have hne : ∀ x ∈ q :: B, l.head ≠ some x := by
              intro x hx e; rw [hhd] at e; injection e with e; exact hdB x hx e.symm
            refine ⟨q :: B, .left (hkeep _ hhd) (Runs.congr (fun x hx => (m2 x (hne x hx)).1) hlk) ?_ ?_ ?_, ?_⟩
            · rw [← hvB]; exact List.map_congr_left (fun x hx => (m2 x (hne x hx)).2)
            · intro x hx
              refine ⟨?_, Nat.lt_of_lt_of_le (i.bound x (List.mem_append_right _ (List.mem_append_right _ hx))) f.mono⟩
              simp only [foot, hkeep _ hhd, Option.toList_some, List.append_nil, List.mem_singleton]
              exact hdB x hx
            · exact (List.nodup_append.1 (List.nodup_cons.1 hnd).2).2.1
            · intro x hx; exact .inr (List.mem_append_right _ hx)
      | front => obtain ⟨rfl, rfl, rfl⟩ := m; exact ⟨[], c0', by simp⟩
      | back => obtain ⟨rfl, rfl, rfl⟩ := m; exact ⟨[], c0', by simp⟩
      | len => obtain ⟨rfl, rfl, rfl⟩ := m; exact ⟨[], c0', by simp⟩
      | isEmpty => obtain ⟨rfl, rfl, rfl⟩ := m; exact ⟨[], c0', by simp⟩
      | values => obtain ⟨rfl, rfl, rfl⟩ := m; exact ⟨[], c0', by simp⟩
  · have e : c.after s op = c := by
      cases c with
      | «at» k => exact absurd ⟨k, rfl⟩ hat
      | _ => cases op <;> first | rfl | exact absurd rfl (hmk' _)
    rw [e]
    exact ⟨R, c0.keep (fun k e => hat ⟨k, e⟩) f hs hkeep, fun x hx => .inl hx⟩

/-! ## Reading an iterator -/

theorem CurIs.nil_node {h : List (DNode T)} {l : DL} {ids : List Nat} {node : Option Nat} {R : List Nat} (c : CurIs h l ids .nil node R) :
    node = none := by
  cases c; rfl

theorem split_node {α : Type} {s : List α} {k : Nat} (hk : k < s.length) : s = s.take k ++ s[k] :: s.drop (k + 1) := by
  rw [← List.drop_eq_getElem_cons hk, List.take_append_drop]

theorem CurIs.at_node {h : List (DNode T)} {l : DL} {ids : List Nat} {k : Nat} {node : Option Nat} {R : List Nat} (c : CurIs h l ids (.at k) node R)
    (hk : k < ids.length) : node = some ids[k] := by
  cases c with
  | «at» hhd hk' hn => rw [hn, List.getElem?_append_left hk, List.getElem?_eq_getElem hk]

/-- An iterator on an element. -/
theorem CurIs.load_at {h : List (DNode T)} {l : DL} {ids : List Nat} {s : List T} {k : Nat} {node : Option Nat} {R : List Nat}
    (i : DInv h l ids s) (c : CurIs h l ids (.at k) node R) (hk : k < s.length) :
    ∃ hd b, l.head = some hd ∧ node ≠ some hd ∧ DS.load node ⟨h, l⟩ = .ok ⟨b, (ids ++ [hd])[k + 1]?, s[k]⟩ ⟨h, l⟩ := by
  cases c with
  | @«at» hd _ _ hhd hk' hn =>
    have hlen := i.length_ids
    have hki : k < ids.length := by omega
    have i' := i
    rw [split_node hki, split_node hk] at i'
    obtain ⟨hne, b, ld⟩ := i'.node (by simp; omega) hhd
    have hnode : node = some ids[k] := by rw [hn, List.getElem?_append_left hki, List.getElem?_eq_getElem hki]
    refine ⟨hd, b, hhd, by rw [hnode]; intro e; injection e with e; exact hne e, ?_⟩
    rw [hnode, ld]
    congr 2
    rw [List.head?_eq_getElem?, ← List.drop_append_of_le_length (by omega), List.getElem?_drop]

/-- An iterator at the end. -/
theorem CurIs.load_end {h : List (DNode T)} {l : DL} {ids : List Nat} {s : List T} {k : Nat} {node : Option Nat} {R : List Nat}
    (i : DInv h l ids s) (c : CurIs h l ids (.at k) node R) (hk : ¬ k < s.length) :
    ∃ hd b w, l.head = some hd ∧ node = some hd ∧ DS.load node ⟨h, l⟩ = .ok ⟨b, (ids ++ [hd])[0]?, w⟩ ⟨h, l⟩ := by
  cases c with
  | @«at» hd _ _ hhd hk' hn =>
    have hlen := i.length_ids
    have hnode : node = some hd := by
      have : k = ids.length := by omega
      rw [hn, this]; simp
    have hnx : nx h hd = some (ids ++ [hd])[0]? := by
      have L := i.lk hd hhd
      cases hx : ids ++ [hd] with
      | nil => simp at hx
      | cons f r => rw [List.cons_append, hx] at L; exact L.1.1
    obtain ⟨_, pvhd, _⟩ := view_of_lt (i.bound hd (by simp [foot, hhd]))
    obtain ⟨w, _, ld⟩ := DS.load_view (l := l) hnx pvhd
    exact ⟨hd, _, w, hhd, hnode, by rw [hnode, ld]⟩

/-- An iterator on an element that `Clear` removed. -/
theorem CurIs.load_left {h : List (DNode T)} {l : DL} {ids : List Nat} {v : T} {rest : List T} {node : Option Nat} {R : List Nat}
    (c : CurIs h l ids (.left v rest) node R) :
    ∃ hd q R' b, l.head = some hd ∧ node = some q ∧ q ≠ hd ∧ R = q :: R' ∧ DS.load node ⟨h, l⟩ = .ok ⟨b, (R' ++ [hd]).head?, v⟩ ⟨h, l⟩ := by
  cases c with
  | @left hd q R' _ _ hhd hr hv hf hnd =>
    obtain ⟨_, pvq, _⟩ := view_of_lt (hf q (by simp)).2
    obtain ⟨w, hw, ld⟩ := DS.load_view (l := l) hr.1 pvq
    simp only [List.map_cons, List.cons.injEq] at hv
    rw [hv.1] at hw; injection hw with hw; subst hw
    refine ⟨hd, q, R', _, hhd, rfl, ?_, rfl, ld⟩
    rintro rfl
    exact (hf q (by simp)).1 (by simp [foot, hhd])

/-- An iterator on a popped element. -/
theorem CurIs.load_popped {h : List (DNode T)} {l : DL} {ids : List Nat} {v : T} {node : Option Nat} {R : List Nat}
    (c : CurIs h l ids (.popped v) node R) :
    ∃ hd b, l.head = some hd ∧ node ≠ some hd ∧ DS.load node ⟨h, l⟩ = .ok ⟨b, none, v⟩ ⟨h, l⟩ := by
  cases c with
  | @popped hd q _ hhd hn hv hf =>
    obtain ⟨_, pvq, _⟩ := view_of_lt hf.2
    obtain ⟨w, hw, ld⟩ := DS.load_view (l := l) hn pvq
    rw [hv] at hw; injection hw with hw; subst hw
    refine ⟨hd, _, hhd, ?_, ld⟩
    intro e; injection e with e; subst e
    exact hf.1 (by simp [foot, hhd])

/-- `Iterate`. -/
theorem CurIs.iterate {h : List (DNode T)} {l : DL} {ids : List Nat} {s : List T} (i : DInv h l ids s) :
    ∃ it, (DL.iterate (T := T)) ⟨h, l⟩ = .ok it ⟨h, l⟩ ∧ CurIs h l ids (if l.head.isSome then .at 0 else .nil) it.node [] := by
  rcases i.iterate with ⟨hd, hhd, e⟩ | ⟨hhd, _, e⟩
  · refine ⟨_, e, ?_⟩
    rw [hhd]
    exact .at hhd (by omega) (by rw [List.head?_eq_getElem?])
  · refine ⟨_, e, ?_⟩
    rw [hhd]
    exact .nil

/-- After a move past a removed element the iterator stands on the next one, or at the end. -/
theorem CurIs.next_left {h : List (DNode T)} {l : DL} {ids : List Nat} {s : List T} {v : T} {rest : List T} {q : Nat} {R : List Nat} {hd : Nat}
    (i : DInv h l ids s) (hhd : l.head = some hd) (c : CurIs h l ids (.left v rest) (some q) (q :: R)) :
    ∃ R', CurIs h l ids (match rest with | [] => .at s.length | v :: rest => .left v rest) (R ++ [hd]).head? R' ∧ ∀ x ∈ R', x ∈ R := by
  cases c with
  | @left hd' _ _ _ _ hhd' hr hv hf hnd =>
    rw [hhd] at hhd'; injection hhd' with hhd'; subst hhd'
    simp only [List.map_cons, List.cons.injEq] at hv
    cases R with
    | nil =>
      have : rest = [] := by simpa using hv.2.symm
      subst this
      refine ⟨[], .at hhd (by rw [i.length_ids]; omega) ?_, by simp⟩
      rw [← i.length_ids]; simp
    | cons y R =>
      cases rest with
      | nil => simp at hv
      | cons u rest => exact ⟨y :: R, .left hhd hr.2 hv.2 (fun x hx => hf x (List.mem_cons_of_mem _ hx)) (List.nodup_cons.1 hnd).2, fun x hx => hx⟩

/-- The client loop from an iterator. -/
theorem CurIs.collect {h : List (DNode T)} {l : DL} {ids : List Nat} {s : List T} (i : DInv h l ids s) (fuel : Nat) :
    ∀ {c : DCur T} {node : Option Nat} {R : List Nat} {r : List T}, CurIs h l ids c node R → c.rest s = some r → r.length < fuel →
      DIter.collect fuel ⟨node⟩ ⟨h, l⟩ = .ok r ⟨h, l⟩ := by
  induction fuel with
  | zero => intro c node R r _ _ hf; simp at hf
  | succ fuel ih =>
    intro c node R r cu hr hf
    cases c with
    | «at» k =>
      simp only [DCur.rest, Option.some.injEq] at hr
      subst hr
      by_cases hk : k < s.length
      · obtain ⟨hd, b, h1, h2, h3⟩ := cu.load_at i hk
        have c' : CurIs h l ids (.at (k + 1)) (ids ++ [hd])[k + 1]? [] := .at h1 (by have := i.length_ids; omega) rfl
        have := ih c' rfl (by simp at hf ⊢; omega)
        rw [List.drop_eq_getElem_cons hk]
        generalize (ids ++ [hd])[k + 1]? = nn at h3 this
        simp [DIter.collect, DIter.isNotEnd, DIter.value, DIter.moveToNext, GoM.bind_def, h1, h2, h3, this]
      · obtain ⟨hd, b, v, h1, h2, _⟩ := cu.load_end i hk
        rw [List.drop_of_length_le (by omega)]
        simp [DIter.collect, DIter.isNotEnd, GoM.bind_def, h1, h2]
    | left v rest =>
      simp only [DCur.rest, Option.some.injEq] at hr
      subst hr
      obtain ⟨hd, q, R', b, h1, rfl, h3, rfl, h5⟩ := cu.load_left
      obtain ⟨R2, c2, _⟩ := cu.next_left i h1
      have : DIter.collect fuel ⟨(R' ++ [hd]).head?⟩ ⟨h, l⟩ = .ok rest ⟨h, l⟩ := by
        cases rest with
        | nil => exact ih c2 (by simp [DCur.rest]) (by simp at hf ⊢; omega)
        | cons u rest => exact ih c2 rfl (by simp at hf ⊢; omega)
      generalize (R' ++ [hd]).head? = nn at h5 this
      simp [DIter.collect, DIter.isNotEnd, DIter.value, DIter.moveToNext, GoM.bind_def, h1, h3, h5, this]
    | popped v => simp [DCur.rest] at hr
    | nil => simp [DCur.rest] at hr
    | dead => simp [DCur.rest] at hr

/-- The client loop from an iterator whose element was popped: it shows that element and panics. -/
theorem CurIs.collect_popped {h : List (DNode T)} {l : DL} {ids : List Nat} {v : T} {node : Option Nat} {R : List Nat}
    (cu : CurIs h l ids (.popped v) node R) (fuel : Nat) : DIter.collect (fuel + 2) ⟨node⟩ ⟨h, l⟩ = .panic ⟨h, l⟩ := by
  obtain ⟨hd, b, h1, h2, h3⟩ := cu.load_popped
  simp [DIter.collect, DIter.isNotEnd, DIter.value, DIter.moveToNext, GoM.bind_def, h1, h2, h3, show DS.load none (⟨h, l⟩ : DS T) = .panic ⟨h, l⟩ from rfl]

/-! ## Worlds of lists and iterators -/

structure CInv (w : CWorld T) (st : CSpec T) (ids : Nat → List Nat) (R : Nat → List Nat) : Prop where
  inv : ∀ i, DInv w.heap (w.vars i) (ids i) (st.lists i).items
  disj : ∀ i j, i ≠ j → ∀ q ∈ foot (w.vars i) (ids i), q ∉ foot (w.vars j) (ids j)
  born : ∀ i, (st.lists i).born = (w.vars i).head.isSome
  own : ∀ c, (w.curs c).1 = (st.curs c).1
  cur : ∀ c, CurIs w.heap (w.vars (st.curs c).1) (ids (st.curs c).1) (st.curs c).2 (w.curs c).2.node (R c)
  out : ∀ c i, ∀ x ∈ R c, x ∉ foot (w.vars i) (ids i)

theorem CInv.init : CInv (CWorld.init : CWorld T) CSpec.init (fun _ => []) (fun _ => []) :=
  ⟨fun _ => DInv.zero _, fun _ _ _ q hq => by simp [foot, CWorld.init] at hq, fun _ => rfl, fun _ => rfl, fun _ => .dead, fun _ _ x hx => by simp at hx⟩

theorem CWorld.back_on (w : CWorld T) (i : Nat) : w.back i (w.on i) = w := by
  have : (fun j => if j = i then w.vars i else w.vars j) = w.vars := by
    funext j; by_cases hj : j = i <;> simp [hj]
  simp only [CWorld.back, CWorld.on, this]

theorem DMove.born [GoZero T] {h h' : List (DNode T)} {l l' : DL} {ids ids' : List Nat} {s : List T} {op : DOp T}
    (m : DMove h h' l l' ids ids' op) (i : DInv h' l' ids' (Deque.step s op).2)
    (b : Bool) (hb : b = l.head.isSome) :
    CList.bornAfter b op = l'.head.isSome := by
  cases op with
  | make vs =>
    cases vs with
    | nil => simp [CList.bornAfter, m rfl]
    | cons v vs =>
      obtain ⟨hd, e, _⟩ := i.head_of_ne (by simp [Deque.step])
      simp [CList.bornAfter, e]
  | pushFront v => obtain ⟨_, hd, e, _⟩ := m; simp [CList.bornAfter, e]
  | pushBack v => obtain ⟨_, hd, e, _⟩ := m; simp [CList.bornAfter, e]
  | popFront => simp [CList.bornAfter, hb, m.2.2]
  | tryPopFront => simp [CList.bornAfter, hb, m.2.2]
  | popBack => simp [CList.bornAfter, hb, m.2.2]
  | tryPopBack => simp [CList.bornAfter, hb, m.2.2]
  | clear => simp [CList.bornAfter, hb, m.2.2]
  | _ => simp [CList.bornAfter, hb, m.2.2]

/-- An operation on one list. -/
theorem CInv.list [GoZero T] {w : CWorld T} {st : CSpec T} {ids R : Nat → List Nat} (I : CInv w st ids R) (i : Nat) (op : DOp T) :
    ∃ ids' R', (DL.exec (w.on i) op).1 = (Deque.step (st.lists i).items op).1 ∧
      CInv (w.back i (DL.exec (w.on i) op).2)
        { lists := fun j => if j = i then (st.lists i).after op else st.lists j
          curs := fun c => if (st.curs c).1 = i then (i, (st.curs c).2.after (st.lists i).items op) else st.curs c } ids' R' := by
  obtain ⟨h', l', i', a1, a2, a3, a4, m⟩ := (I.inv i).exec_moves op
  have e : DL.exec (w.on i) op = ((Deque.step (st.lists i).items op).1, ⟨h', l'⟩) := a1
  rw [e]
  -- nodes an iterator may still visit afterwards
  have hc : ∀ c, ∃ R', (if (st.curs c).1 = i then CurIs h' l' i' ((st.curs c).2.after (st.lists i).items op) (w.curs c).2.node R'
      else CurIs h' (w.vars (st.curs c).1) (ids (st.curs c).1) (st.curs c).2 (w.curs c).2.node R') ∧ ∀ x ∈ R', x ∈ R c ∨ x ∈ ids i ∧ x ∉ foot l' i' := by
    intro c
    have hcur := I.cur c
    by_cases hi : (st.curs c).1 = i
    · rw [hi] at hcur
      obtain ⟨R', b1, b2⟩ := hcur.exec (I.inv i) a3 a4 m
      refine ⟨R', by simp only [hi, if_true]; exact b1, fun x hx => ?_⟩
      rcases b2 x hx with h1 | h1
      · exact .inl h1
      · exact .inr ⟨h1, (b1.out x hx).1⟩
    · refine ⟨R c, by simp only [hi, if_false]; exact hcur.frame a3 (fun x hx => I.out c i x hx), fun x hx => .inl hx⟩
  refine ⟨fun j => if j = i then i' else ids j, fun c => (hc c).choose, rfl, ?_⟩
  have hdisj : ∀ j, j ≠ i → ∀ q ∈ foot (w.vars j) (ids j), q ∉ foot l' i' := by
    intro j hj q hq hc
    rcases a4 q hc with h1 | h1
    · exact I.disj j i hj q hq h1
    · have := (I.inv j).bound q hq; omega
  refine ⟨fun j => ?_, fun j k hjk q hq => ?_, fun j => ?_, fun c => ?_, fun c => ?_, fun c j x hx => ?_⟩
  · by_cases hj : j = i
    · subst hj; simpa [CWorld.back, CList.after] using a2
    · simp only [CWorld.back, hj, if_false]
      exact (I.inv j).frame a3 (fun q hq hc => I.disj j i hj q hq hc)
  · simp only [CWorld.back] at hq ⊢
    by_cases hj : j = i
    · have hk : k ≠ i := fun e => hjk (by rw [hj, e])
      simp only [hj, if_true] at hq
      simp only [hk, if_false]
      exact fun hc => hdisj k hk q hc hq
    · simp only [hj, if_false] at hq
      by_cases hk : k = i
      · simp only [hk, if_true]; exact hdisj j hj q hq
      · simp only [hk, if_false]; exact I.disj j k hjk q hq
  · by_cases hj : j = i
    · subst hj
      simp only [CWorld.back, if_true, CList.after]
      exact m.born a2 _ (I.born j)
    · simp only [CWorld.back, hj, if_false]; exact I.born j
  · simp only [CWorld.back, I.own c]
    by_cases hi : (st.curs c).1 = i <;> simp [hi]
  · have := (hc c).choose_spec.1
    by_cases hi : (st.curs c).1 = i
    · simp only [hi, if_true] at this ⊢
      simpa [CWorld.back] using this
    · simp only [hi, if_false] at this ⊢
      simpa [CWorld.back, hi] using this
  · simp only [CWorld.back]
    rcases (hc c).choose_spec.2 x hx with h1 | ⟨h1, h2⟩
    · by_cases hj : j = i
      · simp only [hj, if_true]
        intro hc
        rcases a4 x hc with h3 | h3
        · exact I.out c i x h1 h3
        · have := ((I.cur c).out x h1).2; omega
      · simp only [hj, if_false]; exact I.out c j x h1
    · by_cases hj : j = i
      · simp only [hj, if_true]; exact h2
      · simp only [hj, if_false]
        exact I.disj i j (fun e => hj e.symm) x (by simp [foot, h1])

/-- Only an iterator changes. -/
theorem CInv.put {w : CWorld T} {st : CSpec T} {ids R : Nat → List Nat} (I : CInv w st ids R) (c i : Nat) {it : DIter} {d : DCur T} {R' : List Nat}
    (hc : CurIs w.heap (w.vars i) (ids i) d it.node R') (ho : ∀ j, ∀ x ∈ R', x ∉ foot (w.vars j) (ids j)) :
    CInv { w with curs := fun x => if x = c then (i, it) else w.curs x } (st.put c i d) ids (fun x => if x = c then R' else R x) := by
  refine ⟨I.inv, I.disj, I.born, fun x => ?_, fun x => ?_, fun x j y hy => ?_⟩
  · by_cases hx : x = c <;> simp [CSpec.put, hx, I.own]
  · by_cases hx : x = c
    · simpa [CSpec.put, hx] using hc
    · simpa [CSpec.put, hx] using I.cur x
  · by_cases hx : x = c
    · simp only [hx, if_true] at hy; exact ho j y hy
    · simp only [hx, if_false] at hy; exact I.out x j y hy

theorem CWorld.move_ok {w : CWorld T} {c i : Nat} {m : GoM (DS T) DIter} {it : DIter} (e : m (w.on i) = .ok it (w.on i)) :
    w.move c i m = (.unit, { w with curs := fun x => if x = c then (i, it) else w.curs x }) := by
  simp only [CWorld.move, e, CWorld.back_on]

theorem CWorld.move_panic {w : CWorld T} {c i : Nat} {m : GoM (DS T) DIter} (e : m (w.on i) = .panic (w.on i)) :
    w.move c i m = (.panicked, w) := by
  simp only [CWorld.move, e, CWorld.back_on]

theorem DIter.moveToNext_ok {it : DIter} {s : DS T} {n : DNode T} (e : DS.load it.node s = .ok n s) :
    it.moveToNext s = .ok ⟨n.next⟩ s := by simp [DIter.moveToNext, GoM.bind_def, e]

theorem DIter.value_ok {it : DIter} {s : DS T} {n : DNode T} (e : DS.load it.node s = .ok n s) :
    it.value s = .ok n.value s := by simp [DIter.value, GoM.bind_def, e]

theorem CWorld.read {α : Type} {w : CWorld T} {i : Nat} {f : α → DObs T} {m : GoM (DS T) α} {a : α} (e : m (w.on i) = .ok a (w.on i)) :
    (let r := DS.observe f m (w.on i); (r.1, w.back i r.2)) = (f a, w) := by
  simp only [DS.observe, e, CWorld.back_on]

/-- The elements of one list change in place. -/
theorem CInv.inPlace {w : CWorld T} {st : CSpec T} {ids R : Nat → List Nat} (I : CInv w st ids R) (i : Nat) {h' : List (DNode T)} {s' : List T}
    (hi : DInv h' (w.vars i) (ids i) s') (hf : DFrame w.heap h' (foot (w.vars i) (ids i))) :
    CInv { w with heap := h' } { st with lists := fun j => if j = i then { st.lists j with items := s' } else st.lists j } ids R := by
  refine ⟨fun j => ?_, I.disj, fun j => ?_, I.own, fun c => (I.cur c).frame hf (I.out c i), I.out⟩
  · by_cases hj : j = i
    · subst hj; simpa using hi
    · simp only [hj, if_false]
      exact (I.inv j).frame hf (fun q hq hc => I.disj j i hj q hq hc)
  · by_cases hj : j = i
    · subst hj; simpa using I.born j
    · simpa [hj] using I.born j

/-- Every step the specification settles. -/
theorem CInv.step [GoZero T] {w : CWorld T} {st : CSpec T} {ids R : Nat → List Nat} (I : CInv w st ids R) {op : COp T} {o : DObs T} {st' : CSpec T}
    (hs : st.step op = some (o, st')) : ∃ ids' R', (w.step op).1 = o ∧ CInv (w.step op).2 st' ids' R' := by
  cases op with
  | list i op =>
    obtain ⟨ids', R', a, b⟩ := I.list i op
    simp only [CSpec.step, Option.some.injEq, Prod.mk.injEq] at hs
    obtain ⟨rfl, rfl⟩ := hs
    exact ⟨ids', R', a, b⟩
  | iterate c i =>
    simp only [CSpec.step, Option.some.injEq, Prod.mk.injEq] at hs
    obtain ⟨rfl, rfl⟩ := hs
    obtain ⟨it, e, hc⟩ := CurIs.iterate (I.inv i)
    have := I.put c i hc (by simp)
    simp only [CWorld.step, CWorld.move_ok (w := w) (c := c) (i := i) e, I.born i]
    exact ⟨ids, _, trivial, this⟩
  | isNotEnd c =>
    have hcur := I.cur c
    have hown := I.own c
    simp only [CSpec.step] at hs
    have goal : ∀ b, (w.curs c).2.isNotEnd (w.on (w.curs c).1) = .ok b (w.on (w.curs c).1) → o = .flag b → st' = st →
        ∃ ids' R', (w.step (.isNotEnd c)).1 = o ∧ CInv (w.step (.isNotEnd c)).2 st' ids' R' := by
      rintro b e rfl rfl
      have := CWorld.read (f := DObs.flag) e
      simp only at this
      simp only [CWorld.step, this]
      exact ⟨ids, R, trivial, I⟩
    have hne : (w.curs c).2.isNotEnd (w.on (w.curs c).1) =
        .ok (decide ((w.curs c).2.node ≠ (w.vars (st.curs c).1).head)) (w.on (w.curs c).1) := by
      simp [DIter.isNotEnd, GoM.bind_def, CWorld.on, hown]
    cases hd : (st.curs c).2 with
    | «at» k =>
      rw [hd] at hcur hs
      simp only [Option.some.injEq, Prod.mk.injEq] at hs
      refine goal _ hne ?_ hs.2.symm
      rw [← hs.1]
      by_cases hk : k < (st.lists (st.curs c).1).items.length
      · obtain ⟨hd, b, h1, h2, _⟩ := hcur.load_at (I.inv _) hk
        simp [hk, h1, h2]
      · obtain ⟨hd, b, v, h1, h2, _⟩ := hcur.load_end (I.inv _) hk
        simp [hk, h1, h2]
    | left v rest =>
      rw [hd] at hcur hs
      simp only [Option.some.injEq, Prod.mk.injEq] at hs
      obtain ⟨hd, q, R', b, h1, h2, h3, _⟩ := hcur.load_left
      refine goal _ hne ?_ hs.2.symm
      rw [← hs.1]; simp [h1, h2, h3]
    | popped v =>
      rw [hd] at hcur hs
      simp only [Option.some.injEq, Prod.mk.injEq] at hs
      obtain ⟨hd, b, h1, h2, _⟩ := hcur.load_popped
      refine goal _ hne ?_ hs.2.symm
      rw [← hs.1]; simp [h1, h2]
    | nil =>
      rw [hd] at hcur hs
      simp only [Option.some.injEq, Prod.mk.injEq] at hs
      have hn : (w.curs c).2.node = none := hcur.nil_node
      refine goal _ hne ?_ hs.2.symm
      rw [← hs.1, I.born, hn]
      cases (w.vars (st.curs c).1).head <;> simp
    | dead => rw [hd] at hs; simp at hs
  | value c =>
    have hcur := I.cur c
    have hown := I.own c
    simp only [CSpec.step] at hs
    have goal : ∀ n : DNode T, DS.load (w.curs c).2.node ⟨w.heap, w.vars (st.curs c).1⟩ = .ok n ⟨w.heap, w.vars (st.curs c).1⟩ →
        o = .val n.value → st' = st → ∃ ids' R', (w.step (.value c)).1 = o ∧ CInv (w.step (.value c)).2 st' ids' R' := by
      rintro n e rfl rfl
      have := CWorld.read (w := w) (i := (w.curs c).1) (f := DObs.val) (DIter.value_ok (by rw [hown]; exact e))
      simp only at this
      simp only [CWorld.step, this]
      exact ⟨ids, R, trivial, I⟩
    cases hd : (st.curs c).2 with
    | «at» k =>
      rw [hd] at hcur hs
      simp only at hs
      by_cases hk : k < (st.lists (st.curs c).1).items.length
      · obtain ⟨hd, b, h1, h2, h3⟩ := hcur.load_at (I.inv _) hk
        rw [List.getElem?_eq_getElem hk] at hs
        simp only [Option.some.injEq, Prod.mk.injEq] at hs
        exact goal _ h3 hs.1.symm hs.2.symm
      · rw [List.getElem?_eq_none (by omega)] at hs; simp at hs
    | left v rest =>
      rw [hd] at hcur hs
      simp only [Option.some.injEq, Prod.mk.injEq] at hs
      obtain ⟨hd, q, R', b, h1, h2, h3, h4, h5⟩ := hcur.load_left
      exact goal _ h5 hs.1.symm hs.2.symm
    | popped v =>
      rw [hd] at hcur hs
      simp only [Option.some.injEq, Prod.mk.injEq] at hs
      obtain ⟨hd, b, h1, h2, h3⟩ := hcur.load_popped
      exact goal _ h3 hs.1.symm hs.2.symm
    | nil =>
      rw [hd] at hcur hs
      simp only [Option.some.injEq, Prod.mk.injEq] at hs
      have hn : (w.curs c).2.node = none := hcur.nil_node
      obtain ⟨rfl, rfl⟩ := hs
      have e : (w.curs c).2.value (w.on (w.curs c).1) = .panic (w.on (w.curs c).1) := by simp [DIter.value, GoM.bind_def, hn, DS.load]
      simp only [CWorld.step, DS.observe, e, CWorld.back_on]
      exact ⟨ids, R, trivial, I⟩
    | dead => rw [hd] at hs; simp at hs
  | next c =>
    have hcur := I.cur c
    have hown := I.own c
    simp only [CSpec.step] at hs
    have goal : ∀ (n : DNode T) (d : DCur T) (R' : List Nat),
        DS.load (w.curs c).2.node ⟨w.heap, w.vars (st.curs c).1⟩ = .ok n ⟨w.heap, w.vars (st.curs c).1⟩ →
        CurIs w.heap (w.vars (st.curs c).1) (ids (st.curs c).1) d n.next R' → (∀ x ∈ R', x ∈ R c) →
        o = .unit → st' = st.put c (st.curs c).1 d → ∃ ids' R', (w.step (.next c)).1 = o ∧ CInv (w.step (.next c)).2 st' ids' R' := by
      rintro n d R' e hc hR rfl rfl
      have := CWorld.move_ok (w := w) (c := c) (i := (st.curs c).1) (DIter.moveToNext_ok (it := (w.curs c).2) e)
      simp only [CWorld.step, hown, this]
      exact ⟨ids, _, trivial, I.put c _ (it := ⟨n.next⟩) hc (fun j x hx => I.out c j x (hR x hx))⟩
    cases hd : (st.curs c).2 with
    | «at» k =>
      rw [hd] at hcur hs
      simp only at hs
      by_cases hk : k < (st.lists (st.curs c).1).items.length
      · obtain ⟨hd, b, h1, h2, h3⟩ := hcur.load_at (I.inv _) hk
        simp only [hk, if_true, Option.some.injEq, Prod.mk.injEq] at hs
        exact goal _ _ [] h3 (.at h1 (by have := (I.inv (st.curs c).1).length_ids; omega) rfl) (by simp) hs.1.symm hs.2.symm
      · obtain ⟨hd, b, v, h1, h2, h3⟩ := hcur.load_end (I.inv _) hk
        simp only [hk, if_false, Option.some.injEq, Prod.mk.injEq] at hs
        exact goal _ _ [] h3 (.at h1 (by omega) rfl) (by simp) hs.1.symm hs.2.symm
    | left v rest =>
      rw [hd] at hcur hs
      obtain ⟨hd, q, R', b, h1, h2, h3, h4, h5⟩ := hcur.load_left
      have hcur' := hcur
      rw [h4, h2] at hcur'
      obtain ⟨R2, hc, hR⟩ := hcur'.next_left (I.inv _) h1
      have hR' : ∀ x ∈ R2, x ∈ R c := fun x hx => by rw [h4]; simp [hR x hx]
      cases rest with
      | nil =>
        simp only [Option.some.injEq, Prod.mk.injEq] at hs
        exact goal _ _ R2 h5 hc hR' hs.1.symm hs.2.symm
      | cons u rest =>
        simp only [Option.some.injEq, Prod.mk.injEq] at hs
        exact goal _ _ R2 h5 hc hR' hs.1.symm hs.2.symm
    | popped v =>
      rw [hd] at hcur hs
      simp only [Option.some.injEq, Prod.mk.injEq] at hs
      obtain ⟨hd, b, h1, h2, h3⟩ := hcur.load_popped
      exact goal _ _ [] h3 .nil (by simp) hs.1.symm hs.2.symm
    | nil =>
      rw [hd] at hcur hs
      simp only [Option.some.injEq, Prod.mk.injEq] at hs
      have hn : (w.curs c).2.node = none := hcur.nil_node
      obtain ⟨rfl, rfl⟩ := hs
      have e : (w.curs c).2.moveToNext (w.on (w.curs c).1) = .panic (w.on (w.curs c).1) := by simp [DIter.moveToNext, GoM.bind_def, hn, DS.load]
      simp only [CWorld.step, CWorld.move_panic e]
      exact ⟨ids, R, trivial, I⟩
    | dead => rw [hd] at hs; simp at hs
  | set c v =>
    have hcur := I.cur c
    have hown := I.own c
    simp only [CSpec.step] at hs
    cases hd : (st.curs c).2 with
    | «at» k =>
      rw [hd] at hcur hs
      simp only at hs
      by_cases hk : k < (st.lists (st.curs c).1).items.length
      · simp only [hk, if_true, Option.some.injEq, Prod.mk.injEq] at hs
        obtain ⟨rfl, rfl⟩ := hs
        obtain ⟨hd, b, h1, h2, h3⟩ := hcur.load_at (I.inv _) hk
        generalize hi : (st.curs c).1 = i at *
        have hlen := (I.inv i).length_ids
        have hki : k < (ids i).length := by omega
        have hnode : (w.curs c).2.node = some (ids i)[k] := hcur.at_node hki
        have i' := I.inv i
        rw [split_node hki, split_node hk] at i'
        obtain ⟨h', e, i2, f2, _⟩ := i'.setVal (by simp; omega) v
        rw [← split_node hki] at i2 f2
        have e2 : (st.lists i).items.take k ++ v :: (st.lists i).items.drop (k + 1) = (st.lists i).items.set k v := by
          rw [List.set_eq_take_append_cons_drop, if_pos hk]
        rw [e2] at i2
        have hw : w.back i ⟨h', w.vars i⟩ = { w with heap := h' } := by
          have : (fun j => if j = i then w.vars i else w.vars j) = w.vars := by funext j; by_cases hj : j = i <;> simp [hj]
          simp only [CWorld.back, this]
        have e3 : DS.setVal (w.curs c).2.node v (w.on i) = .ok () ⟨h', w.vars i⟩ := by rw [hnode]; exact e
        simp only [CWorld.step, hown, DS.observe, e3, hw]
        refine ⟨ids, R, trivial, ?_⟩
        have := I.inPlace i i2 f2
        have e4 : (fun j => if j = i then ({ st.lists j with items := (st.lists j).items.set k v } : CList T) else st.lists j) =
            fun j => if j = i then { st.lists j with items := (st.lists i).items.set k v } else st.lists j := by
          funext j; by_cases hj : j = i <;> simp [hj]
        rw [e4]; exact this
      · simp [hk] at hs
    | nil =>
      rw [hd] at hcur hs
      simp only [Option.some.injEq, Prod.mk.injEq] at hs
      have hn : (w.curs c).2.node = none := hcur.nil_node
      obtain ⟨rfl, rfl⟩ := hs
      have e : DS.setVal (w.curs c).2.node v (w.on (w.curs c).1) = .panic (w.on (w.curs c).1) := by simp [hn, DS.setVal]
      simp only [CWorld.step, DS.observe, e, CWorld.back_on]
      exact ⟨ids, R, trivial, I⟩
    | left => rw [hd] at hs; simp at hs
    | popped => rw [hd] at hs; simp at hs
    | dead => rw [hd] at hs; simp at hs

theorem CInv.run [GoZero T] (ops : List (COp T)) : ∀ {w : CWorld T} {st : CSpec T} {ids R : Nat → List Nat}, CInv w st ids R →
    ∀ {os : List (DObs T)} {st' : CSpec T}, st.run ops = some (os, st') → ∃ ids' R', (w.run ops).1 = os ∧ CInv (w.run ops).2 st' ids' R' := by
  induction ops with
  | nil =>
    intro w st ids R I os st' hs
    simp only [CSpec.run, Option.some.injEq, Prod.mk.injEq] at hs
    obtain ⟨rfl, rfl⟩ := hs
    exact ⟨ids, R, rfl, I⟩
  | cons op ops ih =>
    intro w st ids R I os st' hs
    simp only [CSpec.run] at hs
    cases h1 : st.step op with
    | none => rw [h1] at hs; simp at hs
    | some r =>
      obtain ⟨o, st1⟩ := r
      rw [h1] at hs
      simp only at hs
      cases h2 : st1.run ops with
      | none => rw [h2] at hs; simp at hs
      | some r =>
        obtain ⟨os1, st2⟩ := r
        rw [h2] at hs
        simp only [Option.some.injEq, Prod.mk.injEq] at hs
        obtain ⟨rfl, rfl⟩ := hs
        obtain ⟨ids1, R1, a, I1⟩ := I.step h1
        obtain ⟨ids2, R2, b, I2⟩ := ih I1 h2
        exact ⟨ids2, R2, by simp only [CWorld.run, a, b], I2⟩

/-! ## Histories without pops -/

/-- Iterators of a careful history: on a position, on cleared elements, or useless. -/
def CSpec.Tame (st : CSpec T) : Prop := ∀ c, (st.curs c).2 = .dead ∨ ∃ r, (st.curs c).2.rest (st.lists (st.curs c).1).items = some r

theorem DCur.after_rest {s : List T} {op : DOp T} {d : DCur T} (h : d = .dead ∨ ∃ r, d.rest s = some r)
    (hp : (match op with | .popFront | .popBack | .tryPopFront | .tryPopBack => false | _ => true) = true) (s' : List T) :
    d.after s op = .dead ∨ ∃ r, (d.after s op).rest s' = some r := by
  cases d with
  | «at» k =>
    cases op with
    | clear =>
      simp only [DCur.after]
      split
      · exact .inr ⟨_, rfl⟩
      · exact .inr ⟨_, rfl⟩
    | pushBack v =>
      simp only [DCur.after]
      split
      · exact .inr ⟨_, rfl⟩
      · exact .inr ⟨_, rfl⟩
    | make vs => exact .inl rfl
    | popFront => simp at hp
    | popBack => simp at hp
    | tryPopFront => simp at hp
    | tryPopBack => simp at hp
    | _ => exact .inr ⟨_, rfl⟩
  | left v rest =>
    cases op with
    | make vs => exact .inl rfl
    | _ => exact .inr ⟨_, rfl⟩
  | popped v => simp [DCur.rest] at h
  | nil => simp [DCur.rest] at h
  | dead => cases op <;> exact .inl rfl

theorem CSpec.Tame.run [GoZero T] (ops : List (COp T)) : ∀ {st : CSpec T}, st.Tame → Careful (fun i => (st.lists i).born) ops = true →
    ∀ {os : List (DObs T)} {st' : CSpec T}, st.run ops = some (os, st') → st'.Tame := by
  induction ops with
  | nil =>
    intro st h _ os st' hr
    simp only [CSpec.run, Option.some.injEq, Prod.mk.injEq] at hr
    rw [← hr.2]; exact h
  | cons op ops ih =>
    intro st h hc os st' hr
    simp only [CSpec.run] at hr
    cases hs : st.step op with
    | none => rw [hs] at hr; cases hr
    | some p =>
      obtain ⟨o, st1⟩ := p
      rw [hs] at hr
      simp only at hr
      cases hr1 : st1.run ops with
      | none => rw [hr1] at hr; cases hr
      | some p =>
        obtain ⟨os1, st2⟩ := p
        rw [hr1] at hr
        simp only [Option.some.injEq, Prod.mk.injEq] at hr
        rw [← hr.2]
        have put : ∀ c i k, st1 = st.put c i (.at k) → st1.Tame := by
          intro c i k e x
          rw [e]
          by_cases hx : x = c
          · simp only [CSpec.put, hx, if_true]; exact .inr ⟨_, rfl⟩
          · simp only [CSpec.put, hx, if_false]; exact h x
        suffices st1.Tame ∧ Careful (fun i => (st1.lists i).born) ops = true from ih this.1 this.2 hr1
        cases op with
        | list i op =>
          simp only [Careful, Bool.and_eq_true] at hc
          simp only [CSpec.step, Option.some.injEq, Prod.mk.injEq] at hs
          rw [← hs.2]
          refine ⟨fun c => ?_, ?_⟩
          · by_cases hi : (st.curs c).1 = i
            · simp only [hi, if_true]
              exact DCur.after_rest (by have := h c; rwa [hi] at this) hc.1 _
            · simp only [hi, if_false]; exact h c
          · have e : (fun j => (if j = i then (st.lists i).after op else st.lists j).born) =
                (fun j => if j = i then CList.bornAfter (st.lists j).born op else (st.lists j).born) := by
              funext j
              by_cases hj : j = i
              · simp [hj, CList.after]
              · simp [hj]
            rw [e]; exact hc.2
        | iterate c i =>
          simp only [Careful, Bool.and_eq_true] at hc
          simp only [CSpec.step, hc.1, if_true, Option.some.injEq, Prod.mk.injEq] at hs
          exact ⟨put c i 0 hs.2.symm, by rw [← hs.2]; exact hc.2⟩
        | isNotEnd c =>
          have : st1 = st := by
            simp only [CSpec.step] at hs
            split at hs <;> simp only [Option.some.injEq, Prod.mk.injEq, reduceCtorEq] at hs <;> exact hs.2.symm
          rw [this]; exact ⟨h, hc⟩
        | value c =>
          have : st1 = st := by
            simp only [CSpec.step] at hs
            (repeat' split at hs) <;> simp only [Option.some.injEq, Prod.mk.injEq, reduceCtorEq] at hs <;> exact hs.2.symm
          rw [this]; exact ⟨h, hc⟩
        | next c =>
          have hcc := h c
          simp only [CSpec.step] at hs
          split at hs
          · split at hs <;> simp only [Option.some.injEq, Prod.mk.injEq] at hs
            · exact ⟨put _ _ _ hs.2.symm, by rw [← hs.2]; exact hc⟩
            · exact ⟨put _ _ _ hs.2.symm, by rw [← hs.2]; exact hc⟩
          · simp only [Option.some.injEq, Prod.mk.injEq] at hs
            exact ⟨put _ _ _ hs.2.symm, by rw [← hs.2]; exact hc⟩
          · simp only [Option.some.injEq, Prod.mk.injEq] at hs
            rw [← hs.2]
            refine ⟨fun x => ?_, hc⟩
            by_cases hx : x = c
            · simp only [CSpec.put, hx, if_true]; exact .inr ⟨_, rfl⟩
            · simp only [CSpec.put, hx, if_false]; exact h x
          · rename_i hx; rw [hx] at hcc; simp [DCur.rest] at hcc
          · rename_i hx; rw [hx] at hcc; simp [DCur.rest] at hcc
          · cases hs
        | set c v =>
          have hcc := h c
          simp only [CSpec.step] at hs
          split at hs
          · split at hs
            · simp only [Option.some.injEq, Prod.mk.injEq] at hs
              rw [← hs.2]
              refine ⟨fun x => ?_, ?_⟩
              · rcases h x with hx | ⟨r, hx⟩
                · exact .inl hx
                · refine .inr ?_
                  simp only at hx ⊢
                  cases hd : (st.curs x).2 with
                  | «at» k => exact ⟨_, rfl⟩
                  | left v rest => exact ⟨_, rfl⟩
                  | popped v => rw [hd] at hx; simp [DCur.rest] at hx
                  | nil => rw [hd] at hx; simp [DCur.rest] at hx
                  | dead => rw [hd] at hx; simp [DCur.rest] at hx
              · refine Eq.trans (congrArg (fun f => Careful f ops) ?_) hc
                funext j
                simp only
                split <;> rfl
            · cases hs
          · rename_i hx; rw [hx] at hcc; simp [DCur.rest] at hcc
          · cases hs

end Stl4go
