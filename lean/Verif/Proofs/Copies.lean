import Verif.Spec.Copies
import Verif.Proofs.SList
import Verif.Proofs.DList
/-! # Lemmas about copies of `SList` and `DList` structs -/
namespace Stl4go
variable {T : Type}

/-! ## Who shares with whom -/

theorem Alias.drop_false {al : Alias} {i a b : Nat} (h : al.drop i a b = false) : a ≠ b ∧ (a = i ∨ b = i ∨ al a b = false) := by
  simp only [Alias.drop, Bool.or_eq_false_iff, beq_eq_false_iff_ne, Bool.and_eq_false_iff, bne_eq_false_iff_eq] at h
  exact ⟨h.1, by rcases h.2 with (h | h) | h <;> simp [h]⟩

theorem Alias.drop_true {al : Alias} {i a b : Nat} (h : al.drop i a b = true) (hab : a ≠ b) : a ≠ i ∧ b ≠ i ∧ al a b = true := by
  simp only [Alias.drop, Bool.or_eq_true, beq_iff_eq, Bool.and_eq_true, bne_iff_ne, hab, false_or] at h
  exact ⟨h.1.1, h.1.2, h.2⟩

theorem Alias.join_false {al : Alias} {i j a b : Nat} (h : al.join i j a b = false) :
    a ≠ b ∧ al (if a = i then j else a) (if b = i then j else b) = false := by
  simpa only [Alias.join, Bool.or_eq_false_iff, beq_eq_false_iff_ne] using h

theorem Alias.join_true {al : Alias} {i j a b : Nat} (h : al.join i j a b = true) (hab : a ≠ b) :
    al (if a = i then j else a) (if b = i then j else b) = true := by
  simpa only [Alias.join, Bool.or_eq_true, beq_iff_eq, hab, false_or] using h

/-! ## `SList` -/

/-- Every variable holds its sequence; those that do not share have no node in common, those that do have the same last node. -/
structure LShInv (al : Alias) (w : LWorld T) (s : Nat → List T) (ids : Nat → List Nat) : Prop where
  inv : ∀ i, LInv w.heap (w.vars i) (ids i) (s i)
  refl : ∀ i, al i i = true
  disj : ∀ i j, al i j = false → ∀ q ∈ ids i, q ∉ ids j
  last : ∀ i j, al i j = true → i ≠ j → ids i ≠ [] ∧ ids j ≠ [] ∧ (ids i).getLast? = (ids j).getLast?

theorem LShInv.init : LShInv Alias.start (LWorld.init : LWorld T) (fun _ => []) (fun _ => []) :=
  ⟨fun _ => LInv.zero _, fun i => by simp [Alias.start], fun _ _ _ q hq => by simp at hq, fun i j h hne => by simp [Alias.start] at h; exact absurd h hne⟩

/-- Other operations change no node. -/
theorem LInv.exec_frame [GoZero T] {h : List (LNode T)} {l : LL} {ids : List Nat} {s : List T} (i : LInv h l ids s) (op : LOp T) (ho : op.relinks = false) :
    LFrame h (LL.exec ⟨h, l⟩ op).2.heap [] := by
  obtain ⟨h', l', ids', e, -, -, -, m⟩ := i.exec_moves op
  have same : (LL.exec ⟨h, l⟩ op).2.heap = h → LFrame h (LL.exec ⟨h, l⟩ op).2.heap [] := fun e => by rw [e]; exact LFrame.refl _ _
  cases op with
  | make vs => rw [e]; exact m.1
  | pushFront v =>
    obtain ⟨h1, e1, n1, v1, l1⟩ := LS.alloc_view h l { next := l.head, value := v }
    have : (LL.exec ⟨h, l⟩ (.pushFront v)).2.heap = h1 := by
      simp only [LL.exec, LS.observe, LL.pushFront, GoM.bind_def, GoM.get_apply, e1, GoM.modify_apply]
      split <;> rfl
    rw [this]
    refine ⟨by omega, fun q hq _ => ⟨?_, ?_⟩⟩
    · rw [n1, if_neg (by omega)]
    · rw [v1, if_neg (by omega)]
  | pushBack v => cases ho
  | reverse => cases ho
  | popFront => rw [e]; rw [m.2]; exact LFrame.refl _ _
  | clear => rw [e]; rw [m.2]; exact LFrame.refl _ _
  | front =>
    refine same ?_
    cases s with
    | nil => simp [LL.exec, LS.observe, LL.front, GoM.bind_def, i.isEmpty]
    | cons v s => simp [LL.exec, LS.observe, i.front]
  | back =>
    refine same ?_
    by_cases hs : s = []
    · subst hs
      simp [LL.exec, LS.observe, LL.back, GoM.bind_def, i.isEmpty]
    · obtain ⟨r, v, rfl⟩ : ∃ r v, s = r ++ [v] := ⟨s.dropLast, s.getLast hs, (List.dropLast_concat_getLast hs).symm⟩
      simp [LL.exec, LS.observe, i.back]
  | len => exact same (by simp [LL.exec, LS.observe, LL.len, GoM.bind_def])
  | isEmpty => exact same (by simp [LL.exec, LS.observe, i.isEmpty])
  | values => exact same (by simp [LL.exec, LS.observe, i.values])
  | iterate =>
    refine same ?_
    have := i.iterate
    simp only [LL.exec, LS.observe, this]

theorem upd_self {α : Type} (w : Nat → α) (i : Nat) (x : α) : upd w i x i = x := by simp [upd]
theorem upd_ne {α : Type} (w : Nat → α) {i j : Nat} (x : α) (h : j ≠ i) : upd w i x j = w j := by simp [upd, h]

/-- Where the last node of a list is after an operation. -/
theorem LMove.last {h h' : List (LNode T)} {ids ids' : List Nat} {o : LOp T} (m : LMove h h' ids ids' o) (hr : o.relinks = false) (hn : o.renews = false)
    (he : ids ≠ []) (he' : ids' ≠ []) : ids'.getLast? = ids.getLast? := by
  cases o with
  | make vs => cases hn
  | pushFront v =>
    obtain ⟨p, rfl⟩ := m
    cases ids with
    | nil => exact absurd rfl he
    | cons a r => rfl
  | pushBack v => cases hr
  | reverse => cases hr
  | popFront =>
    rw [m.1] at he' ⊢
    cases ids with
    | nil => exact absurd rfl he
    | cons a r =>
      cases r with
      | nil => exact absurd rfl he'
      | cons b r => rfl
  | clear => exact absurd m.1 he'
  | front => rw [show ids' = ids from m]
  | back => rw [show ids' = ids from m]
  | len => rw [show ids' = ids from m]
  | isEmpty => rw [show ids' = ids from m]
  | values => rw [show ids' = ids from m]
  | iterate => rw [show ids' = ids from m]

theorem LShInv.stmt [GoZero T] {al : Alias} {w : LWorld T} {s : Nat → List T} {ids : Nat → List Nat} (h : LShInv al w s ids) (c : CStmt (LOp T))
    (hf : match c with | .op i o => o.relinks = true → al.Alone i | .copy _ _ => True) :
    ∃ ids', (w.stmt c).1 = (LSeq.stmt s c).1 ∧ LShInv (LSeq.alias al s c) (w.stmt c).2 (LSeq.stmt s c).2 ids' := by
  cases c with
  | op i o =>
    obtain ⟨h', l', i', a1, a2, a3, a4, m⟩ := (h.inv i).exec_moves o
    have hemp : (LSeq.step (s i) o).2.isEmpty = true → i' = [] := fun e => by
      have := a2.length_ids
      rw [List.isEmpty_iff.1 e] at this
      exact List.length_eq_zero_iff.1 this
    have hnemp : (LSeq.step (s i) o).2.isEmpty = false → i' ≠ [] := fun e hc => by
      have := a2.length_ids
      rw [hc] at this
      have := List.length_eq_zero_iff.1 this.symm
      rw [this] at e
      cases e
    -- the other lists are as they were
    have others : ∀ j, j ≠ i → LInv h' (w.vars j) (ids j) (s j) := by
      intro j hj
      cases hr : o.relinks with
      | true =>
        have hd : al i j = false := by
          cases hij : al i j with
          | false => rfl
          | true => exact absurd (hf hr j hij) hj
        exact (h.inv j).frame a3 (fun q hq hc => h.disj i j hd q hc hq)
      | false =>
        have := (h.inv i).exec_frame o hr
        rw [a1] at this
        exact (h.inv j).frame this (fun q _ hc => by cases hc)
    -- what is new about the nodes of `i`
    have apart : ∀ j, j ≠ i → (al i j = false ∨ o.renews = true ∨ (LSeq.step (s i) o).2.isEmpty = true) → ∀ q ∈ i', q ∉ ids j := by
      intro j hj hc q hq hqj
      have hb := (h.inv j).bound q hqj
      rcases hc with hc | hc | hc
      · rcases a4 q hq with h1 | h1
        · exact h.disj i j hc q h1 hqj
        · omega
      · cases o with
        | make vs => have := m.2 q hq; omega
        | _ => cases hc
      · rw [hemp hc] at hq
        cases hq
    have apart' : ∀ j, j ≠ i → (al j i = false ∨ o.renews = true ∨ (LSeq.step (s i) o).2.isEmpty = true) → ∀ q ∈ ids j, q ∉ i' := by
      intro j hj hc q hqj hq
      rcases hc with hc | hc
      · have hb := (h.inv j).bound q hqj
        rcases a4 q hq with h1 | h1
        · exact h.disj j i hc q hqj h1
        · omega
      · exact apart j hj (.inr hc) q hq hqj
    refine ⟨upd ids i i', by simp only [LWorld.stmt, LSeq.stmt, a1], ?_⟩
    simp only [LWorld.stmt, LSeq.stmt, a1]
    refine ⟨fun j => ?_, fun j => ?_, fun j k hjk => ?_, fun j k hjk hne => ?_⟩
    · by_cases hj : j = i
      · subst hj
        simp only [upd_self]
        exact a2
      · simp only [upd_ne _ _ hj]
        exact others j hj
    · simp only [LSeq.alias]
      split
      · simp [Alias.drop]
      · exact h.refl j
    · have hc : j ≠ k ∧ (al j k = false ∨ ((j = i ∨ k = i) ∧ (o.renews = true ∨ (LSeq.step (s i) o).2.isEmpty = true))) := by
        simp only [LSeq.alias] at hjk
        split at hjk
        · rename_i hcond
          rw [Bool.or_eq_true] at hcond
          obtain ⟨h1, h2⟩ := Alias.drop_false hjk
          refine ⟨h1, ?_⟩
          rcases h2 with h2 | h2 | h2
          · exact .inr ⟨.inl h2, hcond⟩
          · exact .inr ⟨.inr h2, hcond⟩
          · exact .inl h2
        · refine ⟨fun e => ?_, .inl hjk⟩
          subst e
          rw [h.refl] at hjk
          cases hjk
      by_cases hj : j = i
      · subst hj
        have hk : k ≠ j := fun e => hc.1 e.symm
        simp only [upd_self, upd_ne _ _ hk]
        exact apart k hk (by rcases hc.2 with h1 | h1; exact .inl h1; exact .inr h1.2)
      · by_cases hk : k = i
        · subst hk
          simp only [upd_self, upd_ne _ _ hj]
          exact apart' j hj (by rcases hc.2 with h1 | h1; exact .inl h1; exact .inr h1.2)
        · simp only [upd_ne _ _ hj, upd_ne _ _ hk]
          refine h.disj j k ?_
          rcases hc.2 with h1 | ⟨h1 | h1, _⟩
          · exact h1
          · exact absurd h1 hj
          · exact absurd h1 hk
    · -- still shared: the last node is where it was
      have key : ∀ a b, al a b = true → a ≠ b → (a = i ∨ b = i) → (o.renews || (LSeq.step (s i) o).2.isEmpty) = false → (upd ids i i') a ≠ [] ∧ (upd ids i i') b ≠ [] ∧
          ((upd ids i i') a).getLast? = ((upd ids i i') b).getLast? := by
        intro a b hab hne hi hcond
        rw [Bool.or_eq_false_iff] at hcond
        obtain ⟨l1, l2, l3⟩ := h.last a b hab hne
        have hr : o.relinks = false := by
          cases hr : o.relinks with
          | false => rfl
          | true =>
            exfalso
            rcases hi with rfl | rfl
            · exact hne (hf hr b hab).symm
            · cases hba : al b a with
              | true => exact hne (hf hr a hba)
              | false =>
                have hl : (ids b).getLast? ≠ none := by simpa [List.getLast?_eq_none_iff] using l2
                obtain ⟨q, hq⟩ := Option.ne_none_iff_exists'.1 hl
                exact h.disj b a hba q (List.mem_of_getLast? hq) (List.mem_of_getLast? (l3.trans hq))
        rcases hi with rfl | rfl
        · have := m.last hr hcond.1 l1 (hnemp hcond.2)
          simp only [upd_self, upd_ne _ _ (Ne.symm hne)]
          exact ⟨hnemp hcond.2, l2, this.trans l3⟩
        · have := m.last hr hcond.1 l2 (hnemp hcond.2)
          simp only [upd_self, upd_ne _ _ hne]
          exact ⟨l1, hnemp hcond.2, l3.trans this.symm⟩
      simp only [LSeq.alias] at hjk
      split at hjk
      · obtain ⟨h1, h2, h3⟩ := Alias.drop_true hjk hne
        simp only [upd_ne _ _ h1, upd_ne _ _ h2]
        exact h.last j k h3 hne
      · rename_i hcond
        rw [Bool.not_eq_true] at hcond
        by_cases hi : j = i ∨ k = i
        · exact key j k hjk hne hi hcond
        · have h1 : j ≠ i := fun e => hi (.inl e)
          have h2 : k ≠ i := fun e => hi (.inr e)
          simp only [upd_ne _ _ h1, upd_ne _ _ h2]
          exact h.last j k hjk hne
  | copy i j =>
    refine ⟨upd ids i (ids j), rfl, ?_⟩
    have eq : ∀ {α : Type} (f : Nat → α) a, upd f i (f j) a = f (if a = i then j else a) := by
      intro α f a
      unfold upd
      split <;> rfl
    simp only [LWorld.stmt, LSeq.stmt, LSeq.alias]
    refine ⟨fun a => ?_, fun a => ?_, fun a b hab => ?_, fun a b hab hne => ?_⟩
    · simp only [eq]
      exact h.inv _
    · split
      · simp [Alias.drop]
      · simp [Alias.join]
    · simp only [eq]
      split at hab
      · rename_i he
        obtain ⟨h1, h2⟩ := Alias.drop_false hab
        have hj : ids j = [] := by
          have := (h.inv j).length_ids
          rw [List.isEmpty_iff.1 he] at this
          exact List.length_eq_zero_iff.1 this
        by_cases ha : a = i
        · rw [if_pos ha, hj]; intro q hq; cases hq
        · by_cases hb : b = i
          · rw [if_pos hb, hj]; intro q _ hq; cases hq
          · rw [if_neg ha, if_neg hb]
            refine h.disj a b ?_
            rcases h2 with h2 | h2 | h2
            · exact absurd h2 ha
            · exact absurd h2 hb
            · exact h2
      · exact h.disj _ _ (Alias.join_false hab).2
    · simp only [eq]
      split at hab
      · obtain ⟨h1, h2, h3⟩ := Alias.drop_true hab hne
        rw [if_neg h1, if_neg h2]
        exact h.last a b h3 hne
      · rename_i he
        have hj : ids j ≠ [] := fun hc => by
          have := (h.inv j).length_ids
          rw [hc] at this
          have := List.length_eq_zero_iff.1 this.symm
          rw [this] at he
          exact he rfl
        have h1 := Alias.join_true hab hne
        by_cases h2 : (if a = i then j else a) = (if b = i then j else b)
        · rw [h2]
          have : ids (if b = i then j else b) ≠ [] := by
            by_cases hb : b = i
            · rw [if_pos hb]; exact hj
            · rw [if_neg hb] at h2 ⊢
              by_cases ha : a = i
              · rw [if_pos ha] at h2
                rw [← h2]; exact hj
              · rw [if_neg ha] at h2
                exact absurd h2 hne
          exact ⟨this, this, rfl⟩
        · exact h.last _ _ h1 h2

theorem LShInv.run [GoZero T] (h : List (CStmt (LOp T))) : ∀ {al : Alias} {w : LWorld T} {s : Nat → List T} {ids : Nat → List Nat}, LShInv al w s ids → LSeq.Fair al s h →
    ∃ ids', (w.runC h).1 = (LSeq.runC s h).1 ∧ LShInv (LSeq.aliases al s h) (w.runC h).2 (LSeq.runC s h).2 ids' := by
  induction h with
  | nil => intro al w s ids hw _; exact ⟨ids, rfl, hw⟩
  | cons c h ih =>
    intro al w s ids hw hf
    obtain ⟨ids1, e1, h1⟩ := hw.stmt c hf.1
    obtain ⟨ids2, e2, h2⟩ := ih h1 hf.2
    refine ⟨ids2, ?_, h2⟩
    simp only [LWorld.runC, LSeq.runC]
    rw [e1, e2]

/-- A list to whose last node another one has been appended: going through it shows the new element, and its `length` does not count it. -/
theorem LInv.appended {h h' : List (LNode T)} {l : LL} {ids : List Nat} {s : List T} (i : LInv h l ids s) {p : Nat} {v : T} (hp : h.length ≤ p)
    (hb : p < h'.length) (hn : ids ≠ []) (hlast : ∀ t, ids.getLast? = some t → lnx h' t = some (some p)) (hsame : ∀ x, x < h.length → ids.getLast? ≠ some x → lnx h' x = lnx h x)
    (hv : ∀ x, x < h.length → lval h' x = lval h x) (hnew : lnx h' p = some none) (hval : lval h' p = some v) :
    LInv h' { l with tail := some p, length := s.length + 1 } (ids ++ [p]) (s ++ [v]) ∧ (ids ++ [p]).head? = l.head := by
  have hh : (ids ++ [p]).head? = l.head := by
    rw [i.head]
    cases ids with
    | nil => exact absurd rfl hn
    | cons a r => rfl
  refine ⟨⟨hh.symm, by simp, ?_, ?_, ?_, by simp, ?_⟩, hh⟩
  · rw [List.nodup_append]
    refine ⟨i.nodup, by simp, fun a ha b hb => ?_⟩
    rw [List.mem_singleton] at hb
    subst hb
    have := i.bound a ha
    omega
  · exact Ch.snoc hnew i.nodup i.ch (fun x hx he => hsame x (i.bound x hx) he) hlast
  · rw [List.map_append, List.map_append]
    congr 1
    · rw [← i.vals]
      exact List.map_congr_left (fun x hx => hv x (i.bound x hx))
    · simp [hval]
  · intro q hq
    rcases List.mem_append.1 hq with hq | hq
    · have := i.bound q hq; omega
    · rw [List.mem_singleton] at hq
      omega

theorem valuesLoop_short {h : List (LNode T)} {l : LL} (sB : List T) : ∀ {B : List Nat} {sA junk : List T} {fuel : Nat}, Walk h B sB →
    B.length < fuel → junk.length < sB.length → LL.valuesLoop fuel B.head? sA.length (sA ++ junk) ⟨h, l⟩ = .panic ⟨h, l⟩ := by
  induction sB with
  | nil => intro B sA junk fuel w hf hj; cases hj
  | cons v sB ih =>
    intro B sA junk fuel w hf hj
    obtain ⟨q, B', rfl, ld, w'⟩ := w.cons
    cases fuel with
    | zero => cases hf
    | succ n =>
      cases junk with
      | nil => simp [LL.valuesLoop, GoM.bind_def, ld]
      | cons z junk =>
        have := ih (sA := sA ++ [v]) (junk := junk) (fuel := n) w' (by simp at hf; omega) (by simpa using hj)
        simp only [List.length_append, List.length_singleton, List.append_assoc, List.singleton_append] at this
        simp [LL.valuesLoop, GoM.bind_def, ld, this]

/-- A list with more nodes than its `length` says. -/
theorem LInv.values_short [GoZero T] {h : List (LNode T)} {l : LL} {ids : List Nat} {s : List T} (i : LInv h l ids s) (l' : LL) (hh : l'.head = l.head) {n : Nat}
    (hl : l'.length = n) (hn : n < s.length) : (LL.values (T := T)) ⟨h, l'⟩ = .panic ⟨h, l'⟩ := by
  have := valuesLoop_short (l := l') s (sA := []) (junk := List.replicate n (GoZero.zero : T)) (fuel := h.length + 1) i.walk
    (by have := i.fuel; omega) (by simpa using hn)
  have hn : ¬ ((n : Int) < 0) := by omega
  simp only [List.length_nil, List.nil_append] at this
  simp [LL.values, LL.len, GoM.bind_def, hl, hn, hh, i.head, this]

theorem LInv.iterate_head {h : List (LNode T)} {l : LL} {ids : List Nat} {s : List T} (i : LInv h l ids s) (l' : LL) (hh : l'.head = l.head) :
    (do let it ← LL.iterate; it.collect (h.length + 1) : GoM (LS T) (List T)) ⟨h, l'⟩ = .ok s ⟨h, l'⟩ := by
  have := Walk.collect (l := l') s (fuel := h.length + 1) i.walk (by have := i.fuel; omega)
  simp [LL.iterate, GoM.bind_def, hh, i.head, this]

/-- What `PushBack` writes. -/
theorem pushBack_heap {h : List (LNode T)} {l : LL} {t : Nat} (ht : l.tail = some t) (hb : t < h.length) (v : T) :
    ∃ h' l', (LL.pushBack v) ⟨h, l⟩ = .ok () ⟨h', l'⟩ ∧ h'.length = h.length + 1 ∧ lnx h' t = some (some h.length) ∧ (∀ x, x < h.length → t ≠ x → lnx h' x = lnx h x) ∧
      (∀ x, x < h.length → lval h' x = lval h x) ∧ lnx h' h.length = some none ∧ lval h' h.length = some v := by
  obtain ⟨h1, e1, n1, v1, l1⟩ := LS.alloc_view h l { next := none, value := v }
  obtain ⟨h2, e2, n2, v2, l2⟩ := LS.setNext_view (h := h1) (l := l) (p := t) (some h.length) (by omega)
  refine ⟨h2, { head := if l.head = none then some h.length else l.head, tail := some h.length, length := l.length + 1 }, ?_, by omega, by rw [n2, if_pos rfl], ?_, ?_, ?_, ?_⟩
  · simp only [LL.pushBack, LL.linkTail, GoM.bind_def, e1, GoM.get_apply, ht, ne_eq, reduceCtorEq, not_false_eq_true, if_true, e2, GoM.modify_apply]
    split <;> rfl
  · intro x hx hne
    rw [n2, if_neg (Ne.symm hne), n1, if_neg (by omega)]
  · intro x hx
    rw [v2, v1, if_neg (by omega)]
  · rw [n2, if_neg (by omega), n1, if_pos rfl]
  · rw [v2, v1, if_pos rfl]

/-- After `PushBack` on a list that shares its nodes with another one, that has the new element too, but does not count it. -/
theorem LShInv.stale [GoZero T] {al : Alias} {w : LWorld T} {s : Nat → List T} {ids : Nat → List Nat} (hw : LShInv al w s ids) {i k : Nat} (hik : al i k = true) (hne : i ≠ k) (v : T) :
    ((w.stmt (.op i (.pushBack v))).2.stmt (.op k .values)).1 = .panicked ∧ ((w.stmt (.op i (.pushBack v))).2.stmt (.op k .iterate)).1 = .list (s k ++ [v]) ∧
      ((w.stmt (.op i (.pushBack v))).2.stmt (.op k .len)).1 = .num (s k).length := by
  obtain ⟨l1, l2, l3⟩ := hw.last i k hik hne
  have hl : (ids i).getLast? ≠ none := by simpa [List.getLast?_eq_none_iff] using l1
  obtain ⟨t, ht⟩ := Option.ne_none_iff_exists'.1 hl
  obtain ⟨h', l', e, hlen, g1, g2, g3, g4, g5⟩ := pushBack_heap (h := w.heap) (l := w.vars i) (t := t) ((hw.inv i).tail.trans ht)
    ((hw.inv i).bound t (List.mem_of_getLast? ht)) v
  have hk : (ids k).getLast? = some t := l3.symm.trans ht
  obtain ⟨hi, hh⟩ := (hw.inv k).appended (h' := h') (p := w.heap.length) (v := v) (Nat.le_refl _) (by omega) l2
    (fun x hx => by rw [hk] at hx; injection hx with hx; subst hx; exact g1)
    (fun x hx hc => g2 x hx (fun e => hc (by rw [hk, e]))) g3 g4 g5
  have e2 : (w.stmt (.op i (.pushBack v))).2 = { heap := h', vars := upd w.vars i l' } := by simp only [LWorld.stmt, LL.exec, LS.observe, e]
  rw [e2]
  refine ⟨?_, ?_, ?_⟩
  · have := hi.values_short (w.vars k) rfl (hw.inv k).len (by simp)
    simp only [LWorld.stmt, LL.exec, LS.observe, upd_ne _ _ (Ne.symm hne), this]
  · have := hi.iterate_head (w.vars k) rfl
    simp only [LWorld.stmt, LL.exec, LS.observe, upd_ne _ _ (Ne.symm hne), this]
  · simp [LWorld.stmt, LL.exec, LS.observe, upd_ne _ _ (Ne.symm hne), LL.len, GoM.bind_def, (hw.inv k).len]

/-! ## `DList` -/

/-- Every variable holds its sequence; those that do not share have no node in common, those that do are equal structs. -/
structure DShInv (x : DShare) (w : DWorld T) (s : Nat → List T) (ids : Nat → List Nat) : Prop where
  inv : ∀ i, DInv w.heap (w.vars i) (ids i) (s i)
  refl : ∀ i, x.al i i = true
  used : ∀ i, x.used i = true ↔ (w.vars i).head ≠ none
  disj : ∀ i j, x.al i j = false → ∀ q ∈ foot (w.vars i) (ids i), q ∉ foot (w.vars j) (ids j)
  same : ∀ i j, x.al i j = true → i ≠ j → w.vars i = w.vars j ∧ ids i = ids j ∧ s i = s j ∧ x.used i = true

theorem DShInv.init : DShInv DShare.start (DWorld.init : DWorld T) (fun _ => []) (fun _ => []) :=
  ⟨fun _ => DInv.zero _, fun i => by simp [DShare.start, Alias.start], fun i => by simp [DShare.start, DWorld.init],
    fun _ _ _ q hq => by simp [foot, DWorld.init] at hq, fun i j h hne => by simp [DShare.start, Alias.start] at h; exact absurd h hne⟩

/-- Other operations change neither nodes nor the struct, except that `DListOf` makes new ones. -/
theorem DInv.exec_still [GoZero T] {h : List (DNode T)} {l : DL} {ids : List Nat} {s : List T} (i : DInv h l ids s) (op : DOp T) (ho : op.writes s = false)
    (hm : ∀ vs, op ≠ .make vs) : (DL.exec ⟨h, l⟩ op).2 = ⟨h, l⟩ ∧ (Deque.step s op).2 = s := by
  obtain ⟨h', l', ids', e, -, -, -, m⟩ := i.exec_moves op
  cases op with
  | make vs => exact absurd rfl (hm vs)
  | pushFront v => cases ho
  | pushBack v => cases ho
  | clear => cases ho
  | popFront =>
    have : s = [] := by simpa [DOp.writes] using ho
    subst this
    simp [DL.exec, DS.observe, DL.popFront, DL.tryPopFront, GoM.bind_def, i.isEmpty, Deque.step]
  | popBack =>
    have : s = [] := by simpa [DOp.writes] using ho
    subst this
    simp [DL.exec, DS.observe, DL.popBack, DL.tryPopBack, GoM.bind_def, i.isEmpty, Deque.step]
  | tryPopFront =>
    have : s = [] := by simpa [DOp.writes] using ho
    subst this
    simp [DL.exec, DS.observe, DL.tryPopFront, GoM.bind_def, i.isEmpty, Deque.step]
  | tryPopBack =>
    have : s = [] := by simpa [DOp.writes] using ho
    subst this
    simp [DL.exec, DS.observe, DL.tryPopBack, GoM.bind_def, i.isEmpty, Deque.step]
  | front => exact ⟨by rw [e, m.2.1, m.2.2], by cases s <;> rfl⟩
  | back => exact ⟨by rw [e, m.2.1, m.2.2], by simp only [Deque.step]; split <;> simp_all⟩
  | len => exact ⟨by rw [e, m.2.1, m.2.2], rfl⟩
  | isEmpty => exact ⟨by rw [e, m.2.1, m.2.2], rfl⟩
  | values => exact ⟨by rw [e, m.2.1, m.2.2], rfl⟩

/-- `DListOf` uses new nodes only. -/
theorem DInv.make [GoZero T] (h : List (DNode T)) (l : DL) (vs : List T) :
    ∃ h' l' ids', DL.exec ⟨h, l⟩ (.make vs) = (.unit, ⟨h', l'⟩) ∧ DInv h' l' ids' vs ∧ DFrame h h' [] ∧ (∀ q ∈ foot l' ids', h.length ≤ q) ∧ (l'.head ≠ none ↔ vs ≠ []) := by
  obtain ⟨h', l', ids', a1, a2, a3, a4⟩ := (DInv.zero h).pushAll vs
  rw [List.nil_append] at a2
  refine ⟨h', l', ids', by simp [DL.exec, DS.observe, DL.dlistOf, GoM.bind_def, a1], a2, ⟨a3.mono, fun q hq _ => a3.same q hq (by simp [foot])⟩, ?_, ?_⟩
  · intro q hq
    rcases a4 q hq with hc | hc
    · simp [foot] at hc
    · exact hc
  · constructor
    · rintro hn rfl
      simp only [DL.pushAll, GoM.pure_apply, Res.ok.injEq, DS.mk.injEq] at a1
      exact hn (by rw [← a1.2.2])
    · intro hn
      obtain ⟨hd, e, -⟩ := a2.head_of_ne hn
      rw [e]
      simp

/-- Which lists have a node. -/
theorem DMove.headNode {h h' : List (DNode T)} {l l' : DL} {ids ids' : List Nat} {o : DOp T} (m : DMove h h' l l' ids ids' o) (hm : ∀ vs, o ≠ .make vs) :
    (∀ x, l.head = some x → l'.head = some x) ∧ ((∃ v, o = .pushFront v ∨ o = .pushBack v) → l'.head ≠ none) ∧ ((∀ v, o ≠ .pushFront v ∧ o ≠ .pushBack v) → l'.head = l.head) := by
  cases o with
  | make vs => exact absurd rfl (hm vs)
  | pushFront v =>
    obtain ⟨-, hd, e, k⟩ := m
    exact ⟨fun x hx => by rw [e, k x hx], fun _ => by rw [e]; simp, fun hc => absurd rfl (hc v).1⟩
  | pushBack v =>
    obtain ⟨-, hd, e, k⟩ := m
    exact ⟨fun x hx => by rw [e, k x hx], fun _ => by rw [e]; simp, fun hc => absurd rfl (hc v).2⟩
  | popFront | popBack | tryPopFront | tryPopBack | clear =>
    exact ⟨fun x hx => by rw [m.2.2, hx], (by rintro ⟨v, hc | hc⟩ <;> cases hc), fun _ => m.2.2⟩
  | front | back | len | isEmpty | values =>
    exact ⟨fun x hx => by rw [m.2.2, hx], (by rintro ⟨v, hc | hc⟩ <;> cases hc), fun _ => by rw [m.2.2]⟩

theorem DShInv.stmt [GoZero T] {x : DShare} {w : DWorld T} {s : Nat → List T} {ids : Nat → List Nat} (h : DShInv x w s ids) (c : CStmt (DOp T))
    (hf : match c with | .op i o => o.writes (s i) = true → x.al.Alone i | .copy _ _ => True) :
    ∃ ids', (w.stmt c).1 = (Deque.stmt s c).1 ∧ DShInv (x.stmt c) (w.stmt c).2 (Deque.stmt s c).2 ids' := by
  cases c with
  | op i o =>
    by_cases hm : ∃ vs, o = .make vs
    · obtain ⟨vs, rfl⟩ := hm
      obtain ⟨h', l', i', a1, a2, a3, a4, a5⟩ := DInv.make w.heap (w.vars i) vs
      have others : ∀ j, DInv h' (w.vars j) (ids j) (s j) := fun j => (h.inv j).frame a3 (fun q _ hc => by cases hc)
      refine ⟨upd ids i i', by simp only [DWorld.stmt, Deque.stmt, a1, Deque.step], ?_⟩
      simp only [DWorld.stmt, Deque.stmt, a1, Deque.step, DShare.stmt]
      refine ⟨fun j => ?_, fun j => by simp [Alias.drop], fun j => ?_, fun j k hjk q hq hq' => ?_, fun j k hjk hne => ?_⟩
      · by_cases hj : j = i
        · subst hj
          simp only [upd_self]
          exact a2
        · simp only [upd_ne _ _ hj]
          exact others j
      · by_cases hj : j = i
        · subst hj
          simp only [upd_self]
          rw [a5]
          cases vs <;> simp
        · simp only [upd_ne _ _ hj]
          exact h.used j
      · obtain ⟨h1, h2⟩ := Alias.drop_false hjk
        by_cases hj : j = i
        · subst hj
          have hk : k ≠ j := Ne.symm h1
          simp only [upd_self, upd_ne _ _ hk] at hq hq'
          have := a4 q hq
          have := (h.inv k).bound q hq'
          omega
        · by_cases hk : k = i
          · subst hk
            simp only [upd_self, upd_ne _ _ hj] at hq hq'
            have := a4 q hq'
            have := (h.inv j).bound q hq
            omega
          · simp only [upd_ne _ _ hj, upd_ne _ _ hk] at hq hq'
            refine h.disj j k ?_ q hq hq'
            rcases h2 with h2 | h2 | h2
            · exact absurd h2 hj
            · exact absurd h2 hk
            · exact h2
      · obtain ⟨h1, h2, h3⟩ := Alias.drop_true hjk hne
        simp only [upd_ne _ _ h1, upd_ne _ _ h2]
        exact h.same j k h3 hne
    · have hm : ∀ vs, o ≠ .make vs := fun vs e => hm ⟨vs, e⟩
      obtain ⟨h', l', i', a1, a2, a3, a4, m⟩ := (h.inv i).exec_moves o
      cases hw : o.writes (s i) with
      | false =>
        obtain ⟨b1, b2⟩ := (h.inv i).exec_still o hw hm
        refine ⟨ids, by simp only [DWorld.stmt, Deque.stmt, a1], ?_⟩
        have e1 : (w.stmt (.op i o)).2 = w := by
          simp only [DWorld.stmt, b1]
          have : upd w.vars i (w.vars i) = w.vars := by funext j; unfold upd; split <;> simp_all
          rw [this]
        have e2 : (Deque.stmt s (.op i o)).2 = s := by
          simp only [Deque.stmt, b2]
          funext j; unfold upd; split <;> simp_all
        have e3 : x.stmt (.op i o) = x := by
          cases o <;> first | exact absurd rfl (hm _) | rfl | cases hw
        rw [e1, e2, e3]
        exact h
      | true =>
        have hal := hf hw
        have alone : ∀ j, j ≠ i → x.al i j = false := fun j hj => by
          cases hij : x.al i j with
          | false => rfl
          | true => exact absurd (hal j hij) hj
        have alone' : ∀ j, j ≠ i → x.al j i = false := fun j hj => by
          cases hij : x.al j i with
          | false => rfl
          | true =>
            exfalso
            obtain ⟨s1, s2, s3, s4⟩ := h.same j i hij hj
            have hn := (h.used j).1 s4
            obtain ⟨p, hp⟩ := Option.ne_none_iff_exists'.1 hn
            exact h.disj i j (alone j hj) p (by simp [foot, ← s1, hp]) (by simp [foot, hp])
        have hu : (x.stmt (.op i o)).al = x.al ∧ (∀ j, j ≠ i → (x.stmt (.op i o)).used j = x.used j) ∧ ((x.stmt (.op i o)).used i = true ↔ l'.head ≠ none) := by
          obtain ⟨m1, m2, m3⟩ := m.headNode hm
          have keep : (∀ v, o ≠ .pushFront v ∧ o ≠ .pushBack v) → (x.used i = true ↔ l'.head ≠ none) := fun hc => by rw [m3 hc]; exact h.used i
          cases o with
          | make vs => exact absurd rfl (hm vs)
          | pushFront v =>
            refine ⟨rfl, fun j hj => upd_ne _ _ hj, ?_⟩
            simp only [DShare.stmt, upd_self, true_iff]
            exact m2 ⟨v, .inl rfl⟩
          | pushBack v =>
            refine ⟨rfl, fun j hj => upd_ne _ _ hj, ?_⟩
            simp only [DShare.stmt, upd_self, true_iff]
            exact m2 ⟨v, .inr rfl⟩
          | popFront | popBack | tryPopFront | tryPopBack | clear => exact ⟨rfl, fun _ _ => rfl, keep (by simp)⟩
          | front | back | len | isEmpty | values => cases hw
        refine ⟨upd ids i i', by simp only [DWorld.stmt, Deque.stmt, a1], ?_⟩
        simp only [DWorld.stmt, Deque.stmt, a1]
        refine ⟨fun j => ?_, fun j => by rw [hu.1]; exact h.refl j, fun j => ?_, fun j k hjk q hq hq' => ?_, fun j k hjk hne => ?_⟩
        · by_cases hj : j = i
          · subst hj
            simp only [upd_self]
            exact a2
          · simp only [upd_ne _ _ hj]
            exact (h.inv j).frame a3 (fun q hq hc => h.disj i j (alone j hj) q hc hq)
        · by_cases hj : j = i
          · subst hj
            simp only [upd_self]
            exact hu.2.2
          · simp only [upd_ne _ _ hj]
            rw [hu.2.1 j hj]
            exact h.used j
        · rw [hu.1] at hjk
          have hne : j ≠ k := fun e => by subst e; rw [h.refl] at hjk; cases hjk
          by_cases hj : j = i
          · subst hj
            simp only [upd_self, upd_ne _ _ (Ne.symm hne)] at hq hq'
            rcases a4 q hq with h1 | h1
            · exact h.disj j k hjk q h1 hq'
            · have := (h.inv k).bound q hq'; omega
          · by_cases hk : k = i
            · subst hk
              simp only [upd_self, upd_ne _ _ hj] at hq hq'
              rcases a4 q hq' with h1 | h1
              · exact h.disj j k hjk q hq h1
              · have := (h.inv j).bound q hq; omega
            · simp only [upd_ne _ _ hj, upd_ne _ _ hk] at hq hq'
              exact h.disj j k hjk q hq hq'
        · rw [hu.1] at hjk
          have hj : j ≠ i := fun e => by subst e; rw [alone k (Ne.symm hne)] at hjk; cases hjk
          have hk : k ≠ i := fun e => by subst e; rw [alone' j hj] at hjk; cases hjk
          simp only [upd_ne _ _ hj, upd_ne _ _ hk, hu.2.1 j hj]
          exact h.same j k hjk hne
  | copy i j =>
    refine ⟨upd ids i (ids j), rfl, ?_⟩
    have eq : ∀ {α : Type} (f : Nat → α) a, upd f i (f j) a = f (if a = i then j else a) := by
      intro α f a
      unfold upd
      split <;> rfl
    simp only [DWorld.stmt, Deque.stmt, DShare.stmt]
    refine ⟨fun a => ?_, fun a => ?_, fun a => ?_, fun a b hab => ?_, fun a b hab hne => ?_⟩
    · simp only [eq]
      exact h.inv _
    · dsimp only
      split
      · simp [Alias.join]
      · simp [Alias.drop]
    · simp only [eq]
      exact h.used _
    · simp only [eq]
      dsimp only at hab
      split at hab
      · exact h.disj _ _ (Alias.join_false hab).2
      · rename_i he
        obtain ⟨h1, h2⟩ := Alias.drop_false hab
        have hj : foot (w.vars j) (ids j) = [] := by
          have hn : (w.vars j).head = none := by
            cases hh : (w.vars j).head with
            | none => rfl
            | some p => exact absurd ((h.used j).2 (by simp [hh])) he
          simp [foot, hn, (h.inv j).empty hn]
        by_cases ha : a = i
        · simp only [if_pos ha, hj]; intro q hq; cases hq
        · by_cases hb : b = i
          · simp only [if_pos hb, hj]; intro q _ hq; cases hq
          · simp only [if_neg ha, if_neg hb]
            refine h.disj a b ?_
            rcases h2 with h2 | h2 | h2
            · exact absurd h2 ha
            · exact absurd h2 hb
            · exact h2
    · simp only [eq]
      dsimp only at hab
      split at hab
      · rename_i he
        have h1 := Alias.join_true hab hne
        by_cases h2 : (if a = i then j else a) = (if b = i then j else b)
        · rw [h2]
          refine ⟨rfl, rfl, rfl, ?_⟩
          by_cases hb : b = i
          · rw [if_pos hb]; exact he
          · rw [if_neg hb] at h2 ⊢
            by_cases ha : a = i
            · rw [if_pos ha] at h2
              rw [← h2]; exact he
            · rw [if_neg ha] at h2
              exact absurd h2 hne
        · exact h.same _ _ h1 h2
      · obtain ⟨h1, h2, h3⟩ := Alias.drop_true hab hne
        simp only [if_neg h1, if_neg h2]
        exact h.same a b h3 hne

theorem DShInv.run [GoZero T] (h : List (CStmt (DOp T))) : ∀ {x : DShare} {w : DWorld T} {s : Nat → List T} {ids : Nat → List Nat}, DShInv x w s ids → Deque.Fair x s h →
    ∃ ids', (w.runC h).1 = (Deque.runC s h).1 ∧ DShInv (x.run h) (w.runC h).2 (Deque.runC s h).2 ids' := by
  induction h with
  | nil => intro x w s ids hw _; exact ⟨ids, rfl, hw⟩
  | cons c h ih =>
    intro x w s ids hw hf
    obtain ⟨ids1, e1, h1⟩ := hw.stmt c hf.1
    obtain ⟨ids2, e2, h2⟩ := ih h1 hf.2
    refine ⟨ids2, ?_, h2⟩
    simp only [DWorld.runC, Deque.runC]
    rw [e1, e2]

theorem collect_head {h : List (DNode T)} {l l' : DL} (hh : l'.head = l.head) : ∀ (fuel : Nat) (it : DIter) (r : List T),
    DIter.collect fuel it ⟨h, l⟩ = .ok r ⟨h, l⟩ → DIter.collect fuel it ⟨h, l'⟩ = .ok r ⟨h, l'⟩ := by
  intro fuel
  induction fuel with
  | zero => intro it r e; cases e
  | succ n ih =>
    intro it r e
    by_cases hn : it.node = l.head
    · simp [DIter.collect, DIter.isNotEnd, GoM.bind_def, hn] at e
      simp [DIter.collect, DIter.isNotEnd, GoM.bind_def, hn, hh, e]
    · cases hp : it.node with
      | none =>
        simp [DIter.collect, DIter.isNotEnd, DIter.value, GoM.bind_def, hn] at e
        simp [hp, DS.load] at e
      | some p =>
        rw [hp] at hn
        cases hq : h[p]? with
        | none =>
          have ld : DS.load (some p) (⟨h, l⟩ : DS T) = .panic ⟨h, l⟩ := by simp [DS.load, hq]
          simp [DIter.collect, DIter.isNotEnd, DIter.value, GoM.bind_def, hn, hp, ld] at e
        | some nd =>
          have ld : ∀ l : DL, DS.load (some p) (⟨h, l⟩ : DS T) = .ok nd ⟨h, l⟩ := fun l => by simp [DS.load, hq]
          simp only [DIter.collect, DIter.isNotEnd, DIter.value, DIter.moveToNext, GoM.bind_def, hp, ld, GoM.get_apply, GoM.pure_apply, ne_eq, hn, not_false_eq_true,
            decide_true, if_true] at e
          simp only [DIter.collect, DIter.isNotEnd, DIter.value, DIter.moveToNext, GoM.bind_def, hp, hh, ld, GoM.get_apply, GoM.pure_apply, ne_eq, hn, not_false_eq_true,
            decide_true, if_true]
          cases hc : DIter.collect n { node := nd.next } (⟨h, l⟩ : DS T) with
          | ok r' st =>
            rw [hc] at e
            simp only [Res.ok.injEq] at e
            obtain ⟨e1, e2⟩ := e
            subst e2
            rw [ih _ _ hc]
            simp [e1]
          | panic st => rw [hc] at e; cases e
          | diverge => rw [hc] at e; cases e

/-- Going through a list does not depend on its `length`. -/
theorem DInv.values_head {h : List (DNode T)} {l : DL} {ids : List Nat} {s : List T} (i : DInv h l ids s) (l' : DL) (hh : l'.head = l.head) :
    (do let it ← DL.iterate; it.collect (h.length + 1) : GoM (DS T) (List T)) ⟨h, l'⟩ = .ok s ⟨h, l'⟩ := by
  have e := i.values
  rcases i.iterate with ⟨hd, hhd, e1⟩ | ⟨hhd, rfl, e1⟩
  · obtain ⟨nd, hq⟩ : ∃ nd, h[hd]? = some nd := by
      have := i.bound hd (by simp [foot, hhd])
      exact ⟨h[hd], by simp [this]⟩
    have ld : ∀ l : DL, DS.load (some hd) (⟨h, l⟩ : DS T) = .ok nd ⟨h, l⟩ := fun l => by simp [DS.load, hq]
    have e2 : ∀ l2 : DL, l2.head = l.head → (DL.iterate (T := T)) ⟨h, l2⟩ = .ok { node := nd.next } ⟨h, l2⟩ := fun l2 h2 => by
      simp [DL.iterate, GoM.bind_def, h2, hhd, ld]
    rw [GoM.bind_def, e2 l rfl] at e
    rw [GoM.bind_def, e2 l' hh]
    exact collect_head hh _ _ _ e
  · simp [DL.iterate, DIter.collect, DIter.isNotEnd, GoM.bind_def, hh, hhd]

/-- After any change to a list that shares its nodes with another one, going through that one shows the changed list; its `Len` is as before. -/
theorem DShInv.stale [GoZero T] {x : DShare} {w : DWorld T} {s : Nat → List T} {ids : Nat → List Nat} (hw : DShInv x w s ids) {i k : Nat} (hik : x.al i k = true) (hne : i ≠ k)
    (o : DOp T) (hm : ∀ vs, o ≠ .make vs) :
    ((w.stmt (.op i o)).2.stmt (.op k .values)).1 = .list (Deque.step (s k) o).2 ∧ ((w.stmt (.op i o)).2.stmt (.op k .len)).1 = .num (s k).length := by
  obtain ⟨s1, s2, s3, s4⟩ := hw.same i k hik hne
  obtain ⟨h', l', i', a1, a2, a3, a4, m⟩ := (hw.inv i).exec_moves o
  obtain ⟨p, hp⟩ := Option.ne_none_iff_exists'.1 ((hw.used i).1 s4)
  have hh : (w.vars k).head = l'.head := by rw [(m.headNode hm).1 p hp, ← s1, hp]
  have e2 : (w.stmt (.op i o)).2 = { heap := h', vars := upd w.vars i l' } := by simp only [DWorld.stmt, a1]
  rw [e2, ← s3]
  refine ⟨?_, ?_⟩
  · have := a2.values_head (w.vars k) hh
    simp only [DWorld.stmt, DL.exec, DS.observe, upd_ne _ _ (Ne.symm hne), this]
  · simp [DWorld.stmt, DL.exec, DS.observe, upd_ne _ _ (Ne.symm hne), DL.len, GoM.bind_def, (hw.inv k).len, s3]

end Stl4go
