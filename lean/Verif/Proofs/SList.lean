import Verif.Spec.SList
import Verif.Spec.ForEach
/-! # SList: chain of nodes, frame, refinement of a sequence -/
namespace Stl4go
variable {T σ : Type}

/-! ## Views of the heap -/

def lnx (h : List (LNode T)) (p : Nat) : Option (Option Nat) := h[p]?.map (·.next)
def lval (h : List (LNode T)) (p : Nat) : Option T := h[p]?.map (·.value)

theorem LS.load_view {h : List (LNode T)} {l : LL} {p : Nat} {a : Option Nat} {v : T} (h1 : lnx h p = some a) (h2 : lval h p = some v) :
    LS.load (some p) ⟨h, l⟩ = .ok ⟨a, v⟩ ⟨h, l⟩ := by
  simp only [lnx, lval, Option.map_eq_some_iff] at h1 h2
  obtain ⟨n, hn, ha⟩ := h1
  obtain ⟨m, hm, hv⟩ := h2
  rw [hn] at hm; injection hm with hm; subst hm
  simp [LS.load, hn, ← ha, ← hv]

theorem LS.setNext_view {h : List (LNode T)} {l : LL} {p : Nat} (v : Option Nat) (hp : p < h.length) :
    ∃ h', LS.setNext (some p) v ⟨h, l⟩ = .ok () ⟨h', l⟩ ∧ (∀ q, lnx h' q = if q = p then some v else lnx h q) ∧
      (∀ q, lval h' q = lval h q) ∧ h'.length = h.length := by
  refine ⟨h.set p { h[p] with next := v }, by simp [LS.setNext, hp], ?_, ?_, by simp⟩ <;> intro q <;>
    simp only [lnx, lval, List.getElem?_set] <;> by_cases hq : q = p
  · subst hq; simp [hp]
  · simp [hq, Ne.symm hq]
  · subst hq; simp [hp]
  · simp [Ne.symm hq]

theorem LS.setVal_view {h : List (LNode T)} {l : LL} {p : Nat} (v : T) (hp : p < h.length) :
    ∃ h', LS.setVal (some p) v ⟨h, l⟩ = .ok () ⟨h', l⟩ ∧ (∀ q, lnx h' q = lnx h q) ∧
      (∀ q, lval h' q = if q = p then some v else lval h q) ∧ h'.length = h.length := by
  refine ⟨h.set p { h[p] with value := v }, by simp [LS.setVal, hp], ?_, ?_, by simp⟩ <;> intro q <;>
    simp only [lnx, lval, List.getElem?_set] <;> by_cases hq : q = p
  · subst hq; simp [hp]
  · simp [Ne.symm hq]
  · subst hq; simp [hp]
  · simp [hq, Ne.symm hq]

theorem LS.alloc_view (h : List (LNode T)) (l : LL) (n : LNode T) :
    ∃ h', LS.alloc n ⟨h, l⟩ = .ok (some h.length) ⟨h', l⟩ ∧ (∀ q, lnx h' q = if q = h.length then some n.next else lnx h q) ∧
      (∀ q, lval h' q = if q = h.length then some n.value else lval h q) ∧ h'.length = h.length + 1 := by
  have key : ∀ q, (h ++ [n])[q]? = if q = h.length then some n else h[q]? := by
    intro q
    by_cases hq : q = h.length
    · subst hq; simp
    · rcases Nat.lt_or_ge q h.length with h1 | h1
      · simp [List.getElem?_append_left h1, hq]
      · rw [List.getElem?_eq_none (by simp; omega), List.getElem?_eq_none h1]; simp [hq]
  refine ⟨_, rfl, ?_, ?_, by simp⟩ <;> intro q <;> simp only [lnx, lval, key] <;> split <;> rfl

/-! ## Chains -/

/-- Each node points at the next, the last at nil. -/
def Ch (h : List (LNode T)) : List Nat → Prop
  | [] => True
  | x :: t => lnx h x = some t.head? ∧ Ch h t

theorem Ch.congr {h h' : List (LNode T)} : ∀ {l : List Nat}, (∀ x ∈ l, lnx h' x = lnx h x) → Ch h l → Ch h' l
  | [], _, _ => trivial
  | x :: _, h1, h2 => ⟨by rw [h1 x (by simp)]; exact h2.1, Ch.congr (fun y hy => h1 y (by simp [hy])) h2.2⟩

theorem Ch.snoc {h h' : List (LNode T)} {p : Nat} (hp : lnx h' p = some none) : ∀ {ids : List Nat}, ids.Nodup → Ch h ids →
    (∀ x ∈ ids, ids.getLast? ≠ some x → lnx h' x = lnx h x) → (∀ t, ids.getLast? = some t → lnx h' t = some (some p)) → Ch h' (ids ++ [p])
  | [], _, _, _, _ => ⟨hp, trivial⟩
  | [x], _, _, _, h2 => ⟨h2 x rfl, hp, trivial⟩
  | x :: y :: r, hn, hc, h1, h2 => by
    have hl : (x :: y :: r).getLast? = (y :: r).getLast? := List.getLast?_cons_cons
    rw [List.nodup_cons] at hn
    rw [hl] at h1 h2
    refine ⟨?_, Ch.snoc hp hn.2 hc.2 (fun z hz => h1 z (by simp at hz ⊢; exact .inr hz)) h2⟩
    rw [h1 x (by simp) (fun e => hn.1 (List.mem_of_getLast? e))]
    exact hc.1

/-- The list `l` has the nodes `ids`, holding the values `s`. -/
structure LInv (h : List (LNode T)) (l : LL) (ids : List Nat) (s : List T) : Prop where
  head : l.head = ids.head?
  tail : l.tail = ids.getLast?
  nodup : ids.Nodup
  ch : Ch h ids
  vals : ids.map (lval h) = s.map some
  len : l.length = s.length
  bound : ∀ q ∈ ids, q < h.length

/-- Nodes outside `ft` are as before. -/
structure LFrame (h h' : List (LNode T)) (ft : List Nat) : Prop where
  mono : h.length ≤ h'.length
  same : ∀ q, q < h.length → q ∉ ft → lnx h' q = lnx h q ∧ lval h' q = lval h q

theorem LFrame.refl (h : List (LNode T)) (ft : List Nat) : LFrame h h ft := ⟨Nat.le_refl _, fun _ _ _ => ⟨rfl, rfl⟩⟩

theorem LFrame.trans {h1 h2 h3 : List (LNode T)} {f1 f2 : List Nat} (a : LFrame h1 h2 f1) (b : LFrame h2 h3 f2)
    (hf : ∀ q ∈ f2, q ∈ f1 ∨ h1.length ≤ q) : LFrame h1 h3 f1 := by
  refine ⟨Nat.le_trans a.mono b.mono, fun q hq hn => ?_⟩
  have h2n : q ∉ f2 := fun hc => by
    rcases hf q hc with h | h
    · exact hn h
    · omega
  obtain ⟨a1, a2⟩ := a.same q hq hn
  obtain ⟨b1, b2⟩ := b.same q (Nat.lt_of_lt_of_le hq a.mono) h2n
  exact ⟨by rw [b1, a1], by rw [b2, a2]⟩

theorem LInv.frame {h h' : List (LNode T)} {l : LL} {ids ft : List Nat} {s : List T} (i : LInv h l ids s) (f : LFrame h h' ft)
    (hd : ∀ q ∈ ids, q ∉ ft) : LInv h' l ids s where
  head := i.head
  tail := i.tail
  nodup := i.nodup
  ch := Ch.congr (fun x hx => (f.same x (i.bound x hx) (hd x hx)).1) i.ch
  vals := by rw [← i.vals]; exact List.map_congr_left (fun x hx => (f.same x (i.bound x hx) (hd x hx)).2)
  len := i.len
  bound := fun q hq => Nat.lt_of_lt_of_le (i.bound q hq) f.mono

theorem LInv.zero (h : List (LNode T)) : LInv h {} [] [] := ⟨rfl, rfl, by simp, trivial, rfl, rfl, by simp⟩

theorem LInv.length_ids {h : List (LNode T)} {l : LL} {ids : List Nat} {s : List T} (i : LInv h l ids s) : ids.length = s.length := by
  have := congrArg List.length i.vals; simpa using this

theorem LInv.fuel {h : List (LNode T)} {l : LL} {ids : List Nat} {s : List T} (i : LInv h l ids s) : ids.length ≤ h.length := by
  have := i.nodup.length_le_of_subset (l₂ := List.range h.length) (fun q hq => by simp [i.bound q hq])
  simpa using this

theorem LInv.isEmpty {h : List (LNode T)} {l : LL} {ids : List Nat} {s : List T} (i : LInv h l ids s) :
    (LL.isEmpty (T := T)) ⟨h, l⟩ = .ok s.isEmpty ⟨h, l⟩ := by
  simp only [LL.isEmpty, GoM.bind_def, GoM.get_apply, GoM.pure_apply, i.len]
  cases s with
  | nil => rfl
  | cons => simp; omega

/-! ## Operations -/

theorem LInv.pushFront {h : List (LNode T)} {l : LL} {ids : List Nat} {s : List T} (i : LInv h l ids s) (v : T) :
    ∃ h' l' ids', (LL.pushFront v) ⟨h, l⟩ = .ok () ⟨h', l'⟩ ∧ LInv h' l' ids' (v :: s) ∧ LFrame h h' ids ∧
      (∀ q ∈ ids', q ∈ ids ∨ h.length ≤ q) ∧ ids' = h.length :: ids := by
  obtain ⟨h1, e1, n1, v1, l1⟩ := LS.alloc_view h l { next := l.head, value := v }
  have hlt : ∀ q, q < h.length → lnx h1 q = lnx h q ∧ lval h1 q = lval h q := by
    intro q hq
    have : q ≠ h.length := by omega
    simp [n1, v1, this]
  refine ⟨h1, { head := some h.length, tail := if l.tail = none then some h.length else l.tail, length := l.length + 1 }, h.length :: ids, ?_,
    ⟨rfl, ?_, ?_, ⟨by simp [n1, i.head], Ch.congr (fun x hx => (hlt x (i.bound x hx)).1) i.ch⟩, ?_, by simp [i.len], ?_⟩,
    ⟨by omega, fun q hq _ => hlt q hq⟩, ?_, rfl⟩
  · simp only [LL.pushFront, GoM.bind_def, GoM.get_apply, e1, GoM.modify_apply]
    by_cases ht : l.tail = none <;> simp [ht]
  · simp only [i.tail]
    cases ids with
    | nil => rfl
    | cons x t => rw [List.getLast?_cons_cons]; simp
  · exact List.nodup_cons.2 ⟨fun hc => by have := i.bound _ hc; omega, i.nodup⟩
  · rw [List.map_cons, List.map_cons, v1, if_pos rfl, ← i.vals]
    congr 1
    exact List.map_congr_left (fun x hx => (hlt x (i.bound x hx)).2)
  · intro q hq
    simp at hq
    rcases hq with rfl | hq
    · omega
    · have := i.bound q hq; omega
  · intro q hq
    simp at hq
    rcases hq with rfl | hq
    · exact .inr (Nat.le_refl _)
    · exact .inl hq

theorem LInv.pushBack {h : List (LNode T)} {l : LL} {ids : List Nat} {s : List T} (i : LInv h l ids s) (v : T) :
    ∃ h' l' ids', (LL.pushBack v) ⟨h, l⟩ = .ok () ⟨h', l'⟩ ∧ LInv h' l' ids' (s ++ [v]) ∧ LFrame h h' ids ∧
      (∀ q ∈ ids', q ∈ ids ∨ h.length ≤ q) ∧ ids' = ids ++ [h.length] := by
  obtain ⟨h1, e1, n1, v1, l1⟩ := LS.alloc_view h l { next := none, value := v }
  -- the link from the old tail
  obtain ⟨h2, e2, n2, v2, l2⟩ : ∃ h2, (LL.linkTail (some h.length)) ⟨h1, l⟩ = .ok () ⟨h2, l⟩ ∧
      (∀ q, lnx h2 q = if l.tail = some q then some (some h.length) else lnx h1 q) ∧ (∀ q, lval h2 q = lval h1 q) ∧ h2.length = h1.length := by
    cases ht : l.tail with
    | none => exact ⟨h1, by simp [LL.linkTail, GoM.bind_def, ht], by simp, by simp, rfl⟩
    | some t =>
      have htl : t < h1.length := by
        have := i.bound t (List.mem_of_getLast? (by rw [← i.tail, ht])); omega
      obtain ⟨h2, e2, n2, v2, l2⟩ := LS.setNext_view (h := h1) (l := l) (p := t) (some h.length) htl
      refine ⟨h2, by simp [LL.linkTail, GoM.bind_def, ht, e2], ?_, v2, l2⟩
      intro q; rw [n2]; simp only [Option.some.injEq, eq_comm]
  have hp : h.length ∉ ids := fun hc => by have := i.bound _ hc; omega
  have htp : l.tail ≠ some h.length := fun hc => hp (List.mem_of_getLast? (by rw [← i.tail, hc]))
  have hv : ∀ q, q < h.length → lval h2 q = lval h q := by
    intro q hq; rw [v2, v1, if_neg (by omega)]
  refine ⟨h2, { head := if l.head = none then some h.length else l.head, tail := some h.length, length := l.length + 1 }, ids ++ [h.length], ?_,
    ⟨?_, by simp, ?_, Ch.snoc ?_ i.nodup i.ch ?_ ?_, ?_, by simp [i.len], ?_⟩, ⟨by omega, ?_⟩, ?_, rfl⟩
  · simp only [LL.pushBack, GoM.bind_def, e1, e2, GoM.modify_apply]
    by_cases hh : l.head = none <;> simp [hh]
  · simp only [i.head]
    cases ids <;> simp
  · rw [List.nodup_append]
    exact ⟨i.nodup, by simp, by intro x hx y hy; simp at hy; subst hy; rintro rfl; exact hp hx⟩
  · rw [n2, if_neg htp, n1, if_pos rfl]
  · intro x hx hne
    have := i.bound x hx
    rw [n2, if_neg (by rw [i.tail]; exact hne), n1, if_neg (by omega)]
  · intro t ht; rw [n2, if_pos (by rw [i.tail]; exact ht)]
  · rw [List.map_append, List.map_append, ← i.vals]
    congr 1
    · exact List.map_congr_left (fun x hx => hv x (i.bound x hx))
    · simp [v2, v1]
  · intro q hq
    simp at hq
    rcases hq with hq | rfl
    · have := i.bound q hq; omega
    · omega
  · intro q hq hn
    refine ⟨?_, hv q hq⟩
    rw [n2, if_neg (fun hc => hn (List.mem_of_getLast? (by rw [← i.tail, hc]))), n1, if_neg (by omega)]
  · intro q hq
    simp at hq
    rcases hq with hq | rfl
    · exact .inl hq
    · exact .inr (Nat.le_refl _)

theorem LInv.popFront {h : List (LNode T)} {l : LL} {ids : List Nat} {v : T} {s : List T} (i : LInv h l ids (v :: s)) :
    ∃ l' ids', (LL.popFront (T := T)) ⟨h, l⟩ = .ok v ⟨h, l'⟩ ∧ LInv h l' ids' s ∧ (∀ q ∈ ids', q ∈ ids) ∧ ids' = ids.tail := by
  cases ids with
  | nil => have := i.vals; simp at this
  | cons q ids =>
    have hv := i.vals
    simp only [List.map_cons, List.cons.injEq] at hv
    have hn := List.nodup_cons.1 i.nodup
    have ld : ∀ l, LS.load (some q) ⟨h, l⟩ = .ok ⟨ids.head?, v⟩ ⟨h, l⟩ := fun l => LS.load_view i.ch.1 hv.1
    have hh : l.head = some q := i.head
    have he := i.isEmpty
    simp only [List.isEmpty_cons] at he
    refine ⟨{ head := ids.head?, tail := if ids.head? = none then none else l.tail, length := l.length - 1 }, ids, ?_,
      ⟨rfl, ?_, hn.2, i.ch.2, hv.2, by simp [i.len], fun x hx => i.bound x (by simp [hx])⟩, fun x hx => by simp [hx], rfl⟩
    · by_cases hc : ids.head? = none <;> simp only [LL.popFront, GoM.bind_def, he, GoM.get_apply, hh, ld, GoM.modify_apply, hc, if_true, if_false,
        GoM.pure_apply, Bool.false_eq_true] <;> rfl
    · cases ids with
      | nil => rfl
      | cons x t => simp [i.tail]

theorem reverseLoop_spec {l : LL} (B : List Nat) : ∀ {h : List (LNode T)} {R : List Nat} {tl : Option Nat} {fuel : Nat},
    (R ++ B).Nodup → Ch h R → Ch h B → (∀ q ∈ R ++ B, q < h.length) → tl = R.getLast? → B.length < fuel →
    ∃ h', LL.reverseLoop fuel B.head? R.head? tl ⟨h, l⟩ = .ok ((B.reverse ++ R).head?, (B.reverse ++ R).getLast?) ⟨h', l⟩ ∧
      Ch h' (B.reverse ++ R) ∧ (∀ q, lval h' q = lval h q) ∧ (∀ q, q ∉ B → lnx h' q = lnx h q) ∧ h'.length = h.length := by
  induction B with
  | nil =>
    intro h R tl fuel _ hR _ _ ht hf
    cases fuel with
    | zero => simp at hf
    | succ n => exact ⟨h, by simp [LL.reverseLoop, ht], by simpa using hR, fun _ => rfl, fun _ _ => rfl, rfl⟩
  | cons q B ih =>
    intro h R tl fuel hn hR hB hb ht hf
    cases fuel with
    | zero => simp at hf
    | succ n =>
      have hq : q < h.length := hb q (by simp)
      have hv : lval h q = some h[q].value := by simp [lval, hq]
      have ld := LS.load_view (l := l) hB.1 hv
      obtain ⟨h1, e1, n1, v1, l1⟩ := LS.setNext_view (h := h) (l := l) (p := q) R.head? hq
      have hp : (q :: R ++ B).Nodup := by
        have : (R ++ q :: B).Perm (q :: R ++ B) := by simp
        exact this.nodup hn
      have hqR : q ∉ R ++ B := by rw [List.cons_append, List.nodup_cons] at hp; exact hp.1
      have hR1 : Ch h1 (q :: R) := ⟨by simp [n1], Ch.congr (fun x hx => by rw [n1, if_neg]; rintro rfl; exact hqR (by simp [hx])) hR⟩
      have hB1 : Ch h1 B := Ch.congr (fun x hx => by rw [n1, if_neg]; rintro rfl; exact hqR (by simp [hx])) hB.2
      obtain ⟨h2, e2, c2, v2, n2, l2⟩ := ih (h := h1) (R := q :: R) (tl := if tl = none then some q else tl) (fuel := n) hp hR1 hB1
        (by intro x hx; rw [l1]; apply hb; simp at hx ⊢; rcases hx with rfl | hx | hx <;> simp [*])
        (by subst ht; cases R with
            | nil => rfl
            | cons x t => rw [List.getLast?_cons_cons]; simp)
        (by simp at hf; omega)
      have hr : (q :: B).reverse ++ R = B.reverse ++ q :: R := by simp
      rw [hr]
      refine ⟨h2, ?_, c2, fun x => by rw [v2, v1], ?_, by omega⟩
      · simp only [List.head?_cons] at e2
        simp [-List.head?_append, -List.getLast?_append, LL.reverseLoop, GoM.bind_def, ld, e1, e2]
      · intro x hx
        simp at hx
        rw [n2 x hx.2, n1, if_neg hx.1]

theorem LInv.reverse {h : List (LNode T)} {l : LL} {ids : List Nat} {s : List T} (i : LInv h l ids s) :
    ∃ h' l' ids', (LL.reverse (T := T)) ⟨h, l⟩ = .ok () ⟨h', l'⟩ ∧ LInv h' l' ids' s.reverse ∧ LFrame h h' ids ∧ (∀ q ∈ ids', q ∈ ids) ∧
      ids' = ids.reverse := by
  obtain ⟨h', e, c, v, n, len⟩ := reverseLoop_spec (l := l) ids (h := h) (R := []) (tl := none) (fuel := h.length + 1) (by simpa using i.nodup)
    trivial i.ch (by simpa using i.bound) rfl (by have := i.fuel; omega)
  rw [List.append_nil] at e c
  refine ⟨h', { l with head := ids.reverse.head?, tail := ids.reverse.getLast? }, ids.reverse, ?_,
    ⟨rfl, rfl, (List.reverse_perm ids).symm.nodup i.nodup, c, ?_, by simp [i.len], ?_⟩, ⟨by omega, fun q _ hq => ⟨n q hq, v q⟩⟩, by simp, rfl⟩
  · simp only [LL.reverse, GoM.bind_def, GoM.get_apply, i.head]
    simp only [List.head?_nil] at e
    rw [e]; rfl
  · rw [List.map_reverse, List.map_reverse, ← i.vals]
    congr 1
    exact List.map_congr_left (fun x _ => v x)
  · intro q hq; rw [len]; exact i.bound q (by simpa using hq)

/-! ## Walking the chain -/

/-- The rest `B` of the nodes holds the rest `sB` of the values. -/
structure Walk (h : List (LNode T)) (B : List Nat) (sB : List T) : Prop where
  ch : Ch h B
  vals : B.map (lval h) = sB.map some

theorem Walk.cons {h : List (LNode T)} {B : List Nat} {v : T} {sB : List T} (w : Walk h B (v :: sB)) :
    ∃ q B', B = q :: B' ∧ (∀ l, LS.load (some q) ⟨h, l⟩ = .ok ⟨B'.head?, v⟩ ⟨h, l⟩) ∧ Walk h B' sB := by
  cases B with
  | nil => have := w.vals; simp at this
  | cons q B =>
    have hv := w.vals
    simp only [List.map_cons, List.cons.injEq] at hv
    exact ⟨q, B, rfl, fun l => LS.load_view w.ch.1 hv.1, w.ch.2, hv.2⟩

theorem Walk.nil {h : List (LNode T)} {B : List Nat} (w : Walk h B ([] : List T)) : B = [] := by
  have := w.vals; simpa using this

theorem LInv.walk {h : List (LNode T)} {l : LL} {ids : List Nat} {s : List T} (i : LInv h l ids s) : Walk h ids s := ⟨i.ch, i.vals⟩

theorem Walk.valuesLoop {h : List (LNode T)} {l : LL} (sB : List T) : ∀ {B : List Nat} {sA junk : List T} {fuel : Nat}, Walk h B sB →
    B.length < fuel → junk.length = sB.length →
    LL.valuesLoop fuel B.head? sA.length (sA ++ junk) ⟨h, l⟩ = .ok (sA ++ sB) ⟨h, l⟩ := by
  induction sB with
  | nil =>
    intro B sA junk fuel w hf hj
    have := w.nil; subst this
    have : junk = [] := List.length_eq_zero_iff.1 (by simpa using hj)
    subst this
    cases fuel with
    | zero => simp at hf
    | succ n => simp [LL.valuesLoop]
  | cons v sB ih =>
    intro B sA junk fuel w hf hj
    obtain ⟨q, B', rfl, ld, w'⟩ := w.cons
    cases fuel with
    | zero => simp at hf
    | succ n =>
      cases junk with
      | nil => simp at hj
      | cons z junk =>
        have := ih (sA := sA ++ [v]) (junk := junk) (fuel := n) w' (by simp at hf; omega) (by simpa using hj)
        simp only [List.length_append, List.length_singleton, List.append_assoc, List.singleton_append] at this
        simp [LL.valuesLoop, GoM.bind_def, ld, this]

theorem LInv.values [GoZero T] {h : List (LNode T)} {l : LL} {ids : List Nat} {s : List T} (i : LInv h l ids s) :
    (LL.values (T := T)) ⟨h, l⟩ = .ok s ⟨h, l⟩ := by
  have := Walk.valuesLoop (l := l) s (sA := []) (junk := List.replicate s.length (GoZero.zero : T)) (fuel := h.length + 1) i.walk
    (by have := i.fuel; omega) (by simp)
  have hn : ¬ ((s.length : Int) < 0) := by omega
  simp only [List.length_nil, List.nil_append] at this
  simp [LL.values, LL.len, GoM.bind_def, i.len, hn, i.head, this]

theorem Walk.collect {h : List (LNode T)} {l : LL} (sB : List T) : ∀ {B : List Nat} {fuel : Nat}, Walk h B sB → B.length < fuel →
    LIter.collect fuel { node := B.head? } ⟨h, l⟩ = .ok sB ⟨h, l⟩ := by
  induction sB with
  | nil =>
    intro B fuel w hf
    have := w.nil; subst this
    cases fuel with
    | zero => simp at hf
    | succ n => simp [LIter.collect, LIter.isNotEnd]
  | cons v sB ih =>
    intro B fuel w hf
    obtain ⟨q, B', rfl, ld, w'⟩ := w.cons
    cases fuel with
    | zero => simp at hf
    | succ n =>
      have := ih (fuel := n) w' (by simp at hf; omega)
      simp [LIter.collect, LIter.isNotEnd, LIter.value, LIter.moveToNext, GoM.bind_def, ld, this]

theorem LInv.iterate {h : List (LNode T)} {l : LL} {ids : List Nat} {s : List T} (i : LInv h l ids s) :
    (do let it ← LL.iterate; it.collect (h.length + 1) : GoM (LS T) (List T)) ⟨h, l⟩ = .ok s ⟨h, l⟩ := by
  have := Walk.collect (l := l) s (fuel := h.length + 1) i.walk (by have := i.fuel; omega)
  simp [LL.iterate, GoM.bind_def, i.head, this]

theorem LInv.front {h : List (LNode T)} {l : LL} {ids : List Nat} {v : T} {s : List T} (i : LInv h l ids (v :: s)) :
    (LL.front (T := T)) ⟨h, l⟩ = .ok v ⟨h, l⟩ := by
  obtain ⟨q, B, rfl, ld, _⟩ := i.walk.cons
  have he := i.isEmpty
  simp only [List.isEmpty_cons] at he
  simp [LL.front, GoM.bind_def, he, i.head, ld]

theorem LInv.back {h : List (LNode T)} {l : LL} {ids : List Nat} {v : T} {s : List T} (i : LInv h l ids (s ++ [v])) :
    (LL.back (T := T)) ⟨h, l⟩ = .ok v ⟨h, l⟩ := by
  have hne : ids ≠ [] := by rintro rfl; have := i.vals; simp at this
  obtain ⟨r, q, rfl⟩ : ∃ r q, ids = r ++ [q] := ⟨ids.dropLast, ids.getLast hne, (List.dropLast_concat_getLast hne).symm⟩
  have hv := i.vals
  rw [List.map_append, List.map_append] at hv
  have hvq : lval h q = some v := by have := (List.append_inj' hv (by simp)).2; simpa using this
  have hq := i.bound q (by simp)
  have ld := LS.load_view (l := l) (a := h[q].next) (by simp [lnx, hq]) hvq
  have he := i.isEmpty
  have : (s ++ [v]).isEmpty = false := by cases s <;> rfl
  rw [this] at he
  simp [LL.back, GoM.bind_def, he, i.tail, ld]

/-! ## One operation -/

theorem LInv.pushAll (vs : List T) : ∀ {h : List (LNode T)} {l : LL} {ids : List Nat} {s : List T}, LInv h l ids s →
    ∃ h' l' ids', (LL.pushAll vs) ⟨h, l⟩ = .ok () ⟨h', l'⟩ ∧ LInv h' l' ids' (s ++ vs) ∧ LFrame h h' ids ∧
      ∀ q ∈ ids', q ∈ ids ∨ h.length ≤ q := by
  induction vs with
  | nil => intro h l ids s i; exact ⟨h, l, ids, rfl, by simpa using i, LFrame.refl _ _, fun q hq => .inl hq⟩
  | cons v vs ih =>
    intro h l ids s i
    obtain ⟨h1, l1, i1, a1, a2, a3, a4, _⟩ := i.pushBack v
    obtain ⟨h2, l2, i2, b1, b2, b3, b4⟩ := ih a2
    refine ⟨h2, l2, i2, ?_, by simpa using b2, a3.trans b3 a4, ?_⟩
    · simp [LL.pushAll, GoM.bind_def, a1, b1]
    · intro q hq
      rcases b4 q hq with h | h
      · exact a4 q h
      · have := a3.mono; omega

/-- What an operation does to the nodes of the list. -/
def LMove (h h' : List (LNode T)) (ids ids' : List Nat) : LOp T → Prop
  | .make _ => LFrame h h' [] ∧ ∀ q ∈ ids', h.length ≤ q
  | .pushFront _ => ∃ p, ids' = p :: ids
  | .pushBack _ => ∃ p, ids' = ids ++ [p]
  | .popFront => ids' = ids.tail ∧ h' = h
  | .reverse => ids' = ids.reverse
  | .clear => ids' = [] ∧ h' = h
  | _ => ids' = ids

theorem LInv.exec_moves [GoZero T] {h : List (LNode T)} {l : LL} {ids : List Nat} {s : List T} (i : LInv h l ids s) (op : LOp T) :
    ∃ h' l' ids', LL.exec ⟨h, l⟩ op = ((LSeq.step s op).1, ⟨h', l'⟩) ∧ LInv h' l' ids' (LSeq.step s op).2 ∧ LFrame h h' ids ∧
      (∀ q ∈ ids', q ∈ ids ∨ h.length ≤ q) ∧ LMove h h' ids ids' op := by
  cases op with
  | make vs =>
    obtain ⟨h', l', ids', a1, a2, a3, a4⟩ := (LInv.zero h).pushAll vs
    refine ⟨h', l', ids', ?_, by simpa [LSeq.step] using a2, ⟨a3.mono, fun q hq _ => a3.same q hq (by simp)⟩, ?_, a3, ?_⟩
    · simp [LL.exec, LS.observe, LL.slistOf, GoM.bind_def, a1, LSeq.step]
    · intro q hq
      rcases a4 q hq with hc | hc
      · simp at hc
      · exact .inr hc
    · intro q hq
      rcases a4 q hq with hc | hc
      · simp at hc
      · exact hc
  | pushFront v =>
    obtain ⟨h', l', ids', a1, a2, a3, a4, a5⟩ := i.pushFront v
    exact ⟨h', l', ids', by simp [LL.exec, LS.observe, a1, LSeq.step], a2, a3, a4, _, a5⟩
  | pushBack v =>
    obtain ⟨h', l', ids', a1, a2, a3, a4, a5⟩ := i.pushBack v
    exact ⟨h', l', ids', by simp [LL.exec, LS.observe, a1, LSeq.step], a2, a3, a4, _, a5⟩
  | popFront =>
    cases s with
    | nil =>
      have he := i.isEmpty
      have hids : ids = [] := List.length_eq_zero_iff.1 i.length_ids
      exact ⟨h, l, ids, by simp [LL.exec, LS.observe, LL.popFront, GoM.bind_def, he, LSeq.step], i, LFrame.refl _ _, fun q hq => .inl hq,
        by simp [hids], rfl⟩
    | cons v s =>
      obtain ⟨l', ids', a1, a2, a4, a5⟩ := i.popFront
      exact ⟨h, l', ids', by simp [LL.exec, LS.observe, a1, LSeq.step], a2, LFrame.refl _ _, fun q hq => .inl (a4 q hq), a5, rfl⟩
  | reverse =>
    obtain ⟨h', l', ids', a1, a2, a3, a4, a5⟩ := i.reverse
    exact ⟨h', l', ids', by simp [LL.exec, LS.observe, a1, LSeq.step], a2, a3, fun q hq => .inl (a4 q hq), a5⟩
  | front =>
    cases s with
    | nil =>
      have he := i.isEmpty
      exact ⟨h, l, ids, by simp [LL.exec, LS.observe, LL.front, GoM.bind_def, he, LSeq.step], i, LFrame.refl _ _, fun q hq => .inl hq, rfl⟩
    | cons v s =>
      exact ⟨h, l, ids, by simp [LL.exec, LS.observe, i.front, LSeq.step], i, LFrame.refl _ _, fun q hq => .inl hq, rfl⟩
  | back =>
    by_cases hs : s = []
    · subst hs
      have he := i.isEmpty
      exact ⟨h, l, ids, by simp [LL.exec, LS.observe, LL.back, GoM.bind_def, he, LSeq.step], i, LFrame.refl _ _, fun q hq => .inl hq, rfl⟩
    · obtain ⟨r, v, rfl⟩ : ∃ r v, s = r ++ [v] := ⟨s.dropLast, s.getLast hs, (List.dropLast_concat_getLast hs).symm⟩
      exact ⟨h, l, ids, by simp [LL.exec, LS.observe, i.back, LSeq.step], by simpa [LSeq.step] using i, LFrame.refl _ _, fun q hq => .inl hq, rfl⟩
  | len =>
    exact ⟨h, l, ids, by simp [LL.exec, LS.observe, LL.len, GoM.bind_def, i.len, LSeq.step], i, LFrame.refl _ _, fun q hq => .inl hq, rfl⟩
  | isEmpty => exact ⟨h, l, ids, by simp [LL.exec, LS.observe, i.isEmpty, LSeq.step], i, LFrame.refl _ _, fun q hq => .inl hq, rfl⟩
  | clear =>
    exact ⟨h, {}, [], by simp [LL.exec, LS.observe, LL.clear, LSeq.step], LInv.zero h, LFrame.refl _ _, by simp, rfl, rfl⟩
  | values => exact ⟨h, l, ids, by simp [LL.exec, LS.observe, i.values, LSeq.step], i, LFrame.refl _ _, fun q hq => .inl hq, rfl⟩
  | iterate =>
    refine ⟨h, l, ids, ?_, i, LFrame.refl _ _, fun q hq => .inl hq, rfl⟩
    have := i.iterate
    simp only [LL.exec, LS.observe, this, LSeq.step]

theorem LInv.exec [GoZero T] {h : List (LNode T)} {l : LL} {ids : List Nat} {s : List T} (i : LInv h l ids s) (op : LOp T) :
    ∃ h' l' ids', LL.exec ⟨h, l⟩ op = ((LSeq.step s op).1, ⟨h', l'⟩) ∧ LInv h' l' ids' (LSeq.step s op).2 ∧ LFrame h h' ids ∧
      ∀ q ∈ ids', q ∈ ids ∨ h.length ≤ q := by
  obtain ⟨h', l', ids', a1, a2, a3, a4, _⟩ := i.exec_moves op
  exact ⟨h', l', ids', a1, a2, a3, a4⟩

/-! ## Several lists -/

structure LWInv (w : LWorld T) (s : Nat → List T) (ids : Nat → List Nat) : Prop where
  inv : ∀ i, LInv w.heap (w.vars i) (ids i) (s i)
  disj : ∀ i j, i ≠ j → ∀ q ∈ ids i, q ∉ ids j

theorem LWInv.init : LWInv (LWorld.init : LWorld T) (fun _ => []) (fun _ => []) := ⟨fun _ => LInv.zero _, fun i j _ q hq => by simp at hq⟩

theorem LWInv.run [GoZero T] (ops : List (Nat × LOp T)) : ∀ {w : LWorld T} {s : Nat → List T} {ids : Nat → List Nat}, LWInv w s ids →
    ∃ ids', (w.run ops).1 = (LSeq.run s ops).1 ∧ LWInv (w.run ops).2 (LSeq.run s ops).2 ids' := by
  induction ops with
  | nil => intro w s ids h; exact ⟨ids, rfl, h⟩
  | cons o ops ih =>
    intro w s ids h
    obtain ⟨i, op⟩ := o
    obtain ⟨h', l', i', a1, a2, a3, a4⟩ := (h.inv i).exec op
    have hw : LWInv { heap := h', vars := fun j => if j = i then l' else w.vars j } (fun j => if j = i then (LSeq.step (s i) op).2 else s j)
        (fun j => if j = i then i' else ids j) := by
      refine ⟨fun j => ?_, fun j k hjk q hq => ?_⟩
      · by_cases hj : j = i
        · subst hj; simpa using a2
        · simp only [hj, if_false]
          exact (h.inv j).frame a3 (fun q hq hc => h.disj j i hj q hq hc)
      · by_cases hj : j = i
        · subst hj
          have hk : k ≠ j := fun e => hjk e.symm
          simp only [if_true] at hq
          simp only [hk, if_false]
          intro hc
          rcases a4 q hq with h1 | h1
          · exact h.disj j k hjk q h1 hc
          · have := (h.inv k).bound q hc; omega
        · simp only [hj, if_false] at hq
          by_cases hk : k = i
          · subst hk
            simp only [if_true]
            intro hc
            rcases a4 q hc with h1 | h1
            · exact h.disj j k hj q hq h1
            · have := (h.inv j).bound q hq; omega
          · simp only [hk, if_false]
            exact h.disj j k hjk q hq
    obtain ⟨ids', b1, b2⟩ := ih hw
    refine ⟨ids', ?_, ?_⟩
    · simp only [LWorld.run, LSeq.run, a1]
      rw [b1]
    · simp only [LWorld.run, LSeq.run, a1]
      exact b2

/-! ## ForEach -/

theorem Walk.forEachLoop {h : List (LNode T)} {l : LL} (cb : σ → T → σ) (sB : List T) : ∀ {B : List Nat} {fuel : Nat} {t : σ}, Walk h B sB →
    B.length < fuel → LL.forEachLoop cb fuel B.head? t ⟨h, l⟩ = .ok (sB.foldl cb t) ⟨h, l⟩ := by
  induction sB with
  | nil =>
    intro B fuel t w hf
    have := w.nil; subst this
    cases fuel with
    | zero => simp at hf
    | succ n => simp [LL.forEachLoop]
  | cons v sB ih =>
    intro B fuel t w hf
    obtain ⟨q, B', rfl, ld, w'⟩ := w.cons
    cases fuel with
    | zero => simp at hf
    | succ n =>
      have := ih (fuel := n) (t := cb t v) w' (by simp at hf; omega)
      simp [LL.forEachLoop, GoM.bind_def, ld, this]

theorem Walk.forEachIfLoop {h : List (LNode T)} {l : LL} (cb : σ → T → σ × Bool) (sB : List T) : ∀ {B : List Nat} {fuel : Nat} {t : σ},
    Walk h B sB → B.length < fuel → LL.forEachIfLoop cb fuel B.head? t ⟨h, l⟩ = .ok (visitWhile1 cb t sB) ⟨h, l⟩ := by
  induction sB with
  | nil =>
    intro B fuel t w hf
    have := w.nil; subst this
    cases fuel with
    | zero => simp at hf
    | succ n => simp [LL.forEachIfLoop, visitWhile1]
  | cons v sB ih =>
    intro B fuel t w hf
    obtain ⟨q, B', rfl, ld, w'⟩ := w.cons
    cases fuel with
    | zero => simp at hf
    | succ n =>
      have := ih (fuel := n) (t := (cb t v).1) w' (by simp at hf; omega)
      rcases Bool.eq_false_or_eq_true (cb t v).2 with hc | hc <;> simp [LL.forEachIfLoop, visitWhile1, GoM.bind_def, ld, hc, this]

/-- Writing the value of the first of the remaining nodes. -/
theorem LInv.setVal {h : List (LNode T)} {l : LL} {A B : List Nat} {q : Nat} {sA sB : List T} {v : T}
    (i : LInv h l (A ++ q :: B) (sA ++ v :: sB)) (hA : A.length = sA.length) (w : T) :
    (∀ l, LS.load (some q) ⟨h, l⟩ = .ok ⟨B.head?, v⟩ ⟨h, l⟩) ∧
    ∃ h', LS.setVal (some q) w ⟨h, l⟩ = .ok () ⟨h', l⟩ ∧ LInv h' l (A ++ q :: B) (sA ++ w :: sB) ∧ LFrame h h' (A ++ q :: B) ∧
      (∀ l, LS.load (some q) ⟨h', l⟩ = .ok ⟨B.head?, w⟩ ⟨h', l⟩) := by
  have hq : q ∈ A ++ q :: B := by simp
  obtain ⟨h', e, m, u, len⟩ := LS.setVal_view (h := h) (l := l) (p := q) w (i.bound q hq)
  have hv := i.vals
  rw [List.map_append, List.map_append] at hv
  have h2 := List.append_inj hv (by simp [hA])
  simp only [List.map_cons, List.cons.injEq] at h2
  obtain ⟨s1, s2, s3⟩ := h2
  have hn := List.nodup_append.1 i.nodup
  have hc : lnx h q = some B.head? := by
    have := i.ch
    clear e m u hv hn s1 i hA
    induction A with
    | nil => exact this.1
    | cons a A ih => exact ih (by simp) this.2
  refine ⟨fun l => LS.load_view hc s2, h', e, ⟨i.head, i.tail, i.nodup, Ch.congr (fun x _ => m x) i.ch, ?_, ?_, ?_⟩, ⟨by omega, ?_⟩,
    fun l => LS.load_view (by rw [m, hc]) (by rw [u, if_pos rfl])⟩
  · rw [List.map_append, List.map_append, List.map_cons, List.map_cons, u q, if_pos rfl, ← s1, ← s3]
    congr 1
    · apply List.map_congr_left; intro x hx
      rw [u, if_neg]; rintro rfl; exact hn.2.2 x hx x (by simp) rfl
    · congr 1
      apply List.map_congr_left; intro x hx
      rw [u, if_neg]; rintro rfl; exact (List.nodup_cons.1 hn.2.1).1 hx
  · have := i.len; simpa using this
  · intro x hx; rw [len]; exact i.bound x hx
  · intro x _ hx
    have : x ≠ q := by rintro rfl; exact hx hq
    exact ⟨m x, by rw [u, if_neg this]⟩

theorem LInv.rest_nil {h : List (LNode T)} {l : LL} {A B : List Nat} {sA : List T} (i : LInv h l (A ++ B) (sA ++ [])) (hA : A.length = sA.length) :
    B = [] := by have := i.length_ids; simp at this; exact List.length_eq_zero_iff.1 (by omega)

theorem LInv.rest_cons {h : List (LNode T)} {l : LL} {A B : List Nat} {sA sB : List T} {v : T} (i : LInv h l (A ++ B) (sA ++ v :: sB))
    (hA : A.length = sA.length) : ∃ q B', B = q :: B' := by
  cases B with
  | nil => have := i.length_ids; simp at this; omega
  | cons q B => exact ⟨q, B, rfl⟩

theorem LInv.forEachMutableLoop {l : LL} (cb : σ → T → σ × T) (sB : List T) : ∀ {h : List (LNode T)} {A B : List Nat} {sA : List T} {fuel : Nat}
    {t : σ}, LInv h l (A ++ B) (sA ++ sB) → A.length = sA.length → B.length < fuel →
    ∃ h', LL.forEachMutableLoop cb fuel B.head? t ⟨h, l⟩ = .ok (updateAll1 cb t sB).1 ⟨h', l⟩ ∧
      LInv h' l (A ++ B) (sA ++ (updateAll1 cb t sB).2) ∧ LFrame h h' (A ++ B) := by
  induction sB with
  | nil =>
    intro h A B sA fuel t i hA hf
    have := i.rest_nil hA; subst this
    cases fuel with
    | zero => simp at hf
    | succ n => exact ⟨h, by simp [LL.forEachMutableLoop, updateAll1], by simpa [updateAll1] using i, LFrame.refl _ _⟩
  | cons v sB ih =>
    intro h A B sA fuel t i hA hf
    obtain ⟨q, B, rfl⟩ := i.rest_cons hA
    cases fuel with
    | zero => simp at hf
    | succ n =>
      obtain ⟨ld, h1, e1, i1, f1, ld1⟩ := i.setVal hA (cb t v).2
      obtain ⟨h2, e2, i2, f2⟩ := ih (h := h1) (A := A ++ [q]) (B := B) (sA := sA ++ [(cb t v).2]) (fuel := n) (t := (cb t v).1)
        (by simpa using i1) (by simp [hA]) (by simp at hf; omega)
      refine ⟨h2, ?_, by simpa [updateAll1] using i2, f1.trans f2 (fun x hx => .inl (by simpa using hx))⟩
      simp [LL.forEachMutableLoop, updateAll1, GoM.bind_def, ld, e1, ld1, e2]

theorem LInv.forEachMutableIfLoop {l : LL} (cb : σ → T → σ × T × Bool) (sB : List T) : ∀ {h : List (LNode T)} {A B : List Nat} {sA : List T}
    {fuel : Nat} {t : σ}, LInv h l (A ++ B) (sA ++ sB) → A.length = sA.length → B.length < fuel →
    ∃ h', LL.forEachMutableIfLoop cb fuel B.head? t ⟨h, l⟩ = .ok (updateWhile1 cb t sB).1 ⟨h', l⟩ ∧
      LInv h' l (A ++ B) (sA ++ (updateWhile1 cb t sB).2) ∧ LFrame h h' (A ++ B) := by
  induction sB with
  | nil =>
    intro h A B sA fuel t i hA hf
    have := i.rest_nil hA; subst this
    cases fuel with
    | zero => simp at hf
    | succ n => exact ⟨h, by simp [LL.forEachMutableIfLoop, updateWhile1], by simpa [updateWhile1] using i, LFrame.refl _ _⟩
  | cons v sB ih =>
    intro h A B sA fuel t i hA hf
    obtain ⟨q, B, rfl⟩ := i.rest_cons hA
    cases fuel with
    | zero => simp at hf
    | succ n =>
      obtain ⟨ld, h1, e1, i1, f1, ld1⟩ := i.setVal hA (cb t v).2.1
      rcases Bool.eq_false_or_eq_true (cb t v).2.2 with hc | hc
      · obtain ⟨h2, e2, i2, f2⟩ := ih (h := h1) (A := A ++ [q]) (B := B) (sA := sA ++ [(cb t v).2.1]) (fuel := n) (t := (cb t v).1)
          (by simpa using i1) (by simp [hA]) (by simp at hf; omega)
        refine ⟨h2, ?_, by simpa [updateWhile1, hc] using i2, f1.trans f2 (fun x hx => .inl (by simpa using hx))⟩
        simp [LL.forEachMutableIfLoop, updateWhile1, GoM.bind_def, ld, e1, ld1, e2, hc]
      · refine ⟨h1, ?_, by simpa [updateWhile1, hc] using i1, f1⟩
        simp [LL.forEachMutableIfLoop, updateWhile1, GoM.bind_def, ld, e1, hc]

theorem LInv.updateLoop {l : LL} (f : T → T) (sB : List T) : ∀ {h : List (LNode T)} {A B : List Nat} {sA : List T}
    {fuel : Nat}, LInv h l (A ++ B) (sA ++ sB) → A.length = sA.length → B.length < fuel →
    ∃ h', LIter.update f fuel { node := B.head? } ⟨h, l⟩ = .ok () ⟨h', l⟩ ∧ LInv h' l (A ++ B) (sA ++ sB.map f) ∧ LFrame h h' (A ++ B) := by
  induction sB with
  | nil =>
    intro h A B sA fuel i hA hf
    have := i.rest_nil hA; subst this
    cases fuel with
    | zero => simp at hf
    | succ n => exact ⟨h, by simp [LIter.update, LIter.isNotEnd], by simpa using i, LFrame.refl _ _⟩
  | cons v sB ih =>
    intro h A B sA fuel i hA hf
    obtain ⟨q, B, rfl⟩ := i.rest_cons hA
    cases fuel with
    | zero => simp at hf
    | succ n =>
      obtain ⟨ld, h1, e1, i1, f1, ld1⟩ := i.setVal hA (f v)
      obtain ⟨h2, e2, i2, f2⟩ := ih (h := h1) (A := A ++ [q]) (B := B) (sA := sA ++ [f v]) (fuel := n)
        (by simpa using i1) (by simp [hA]) (by simp at hf; omega)
      refine ⟨h2, ?_, by simpa using i2, f1.trans f2 (fun x hx => .inl (by simpa using hx))⟩
      simp [LIter.update, LIter.isNotEnd, LIter.value, LIter.moveToNext, GoM.bind_def, ld, e1, ld1, e2]

/-- Replacing the contents of one variable in place keeps the world in order. -/
theorem LWInv.becomes [GoZero T] {w : LWorld T} {s : Nat → List T} {ids : Nat → List Nat} (hw : LWInv w s ids) (i : Nat) {h' : List (LNode T)}
    {s' : List T} (hi : LInv h' (w.vars i) (ids i) s') (hf : LFrame w.heap h' (ids i)) : w.Becomes i ⟨h', w.vars i⟩ s s' := by
  intro ops
  have hw' : LWInv { heap := h', vars := w.vars } (fun j => if j = i then s' else s j) ids := by
    refine ⟨fun j => ?_, hw.disj⟩
    by_cases hj : j = i
    · subst hj; simpa using hi
    · simp only [hj, if_false]
      exact (hw.inv j).frame hf (fun q hq hc => hw.disj j i hj q hq hc)
  obtain ⟨_, a, _⟩ := LWInv.run ops hw'
  rw [← a]
  congr 3
  funext j
  by_cases hj : j = i
  · subst hj; simp
  · simp [hj]

end Stl4go
