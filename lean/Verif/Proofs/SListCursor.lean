import Verif.Proofs.SList
import Verif.Spec.SListCursor
/-! # SList iterators while the list changes: the removed nodes an iterator still goes through -/
namespace Stl4go
variable {T : Type}

/-- The node where the live part of an iterator begins. -/
def ends (ids : List Nat) : Option Nat → Option Nat
  | none => none
  | some k => ids[k]?

/-- The first node of `R`, or else `e`. -/
def first (e : Option Nat) : List Nat → Option Nat
  | [] => e
  | x :: _ => some x

theorem first_append (e : Option Nat) (A B : List Nat) : first e (A ++ B) = first (first e B) A := by cases A <;> rfl

/-- Each node of `R` points at the next, the last at `e`. -/
def RunsTo (h : List (LNode T)) (e : Option Nat) : List Nat → Prop
  | [] => True
  | x :: t => lnx h x = some (first e t) ∧ RunsTo h e t

theorem RunsTo.congr {h h' : List (LNode T)} {e : Option Nat} : ∀ {R : List Nat}, (∀ x ∈ R, lnx h' x = lnx h x) → RunsTo h e R → RunsTo h' e R
  | [], _, _ => trivial
  | x :: _, h1, h2 => ⟨by rw [h1 x (by simp)]; exact h2.1, RunsTo.congr (fun y hy => h1 y (by simp [hy])) h2.2⟩

theorem RunsTo.append {h : List (LNode T)} {e : Option Nat} {B : List Nat} (hB : RunsTo h e B) : ∀ {A : List Nat}, RunsTo h (first e B) A →
    RunsTo h e (A ++ B)
  | [], _ => hB
  | _ :: t, hA => ⟨by show _ = some (first e (t ++ B)); rw [first_append]; exact hA.1, RunsTo.append hB (A := t) hA.2⟩

theorem first_none (l : List Nat) : first none l = l.head? := by cases l <;> rfl

theorem Ch.runsTo {h : List (LNode T)} : ∀ {l : List Nat}, Ch h l → RunsTo h none l
  | [], _ => trivial
  | _ :: t, hc => ⟨by rw [first_none]; exact hc.1, Ch.runsTo (l := t) hc.2⟩

theorem Ch.drop {h : List (LNode T)} : ∀ {l : List Nat} (k : Nat), Ch h l → Ch h (l.drop k)
  | _, 0, hc => hc
  | [], _ + 1, _ => trivial
  | _ :: t, k + 1, hc => Ch.drop (l := t) k hc.2

theorem first_drop {ids : List Nat} (k : Nat) : first none (ids.drop k) = ids[k]? := by
  rw [first_none, List.head?_drop]

/-- The iterator with node `n` is the iterator `c` of the list with nodes `ids`; it goes through the removed nodes `R` first. -/
structure LCurIs (h : List (LNode T)) (ids : List Nat) (c : LCur T) (n : Option Nat) (R : List Nat) : Prop where
  pos : ∀ k, c.pos = some k → k < ids.length
  node : n = first (ends ids c.pos) R
  runs : RunsTo h (ends ids c.pos) R
  vals : R.map (lval h) = c.pre.map some
  bound : ∀ x ∈ R, x < h.length
  nodup : R.Nodup

theorem LCurIs.frame {h h' : List (LNode T)} {ids ft : List Nat} {c : LCur T} {n : Option Nat} {R : List Nat} (a : LCurIs h ids c n R)
    (f : LFrame h h' ft) (hd : ∀ x ∈ R, x ∉ ft) : LCurIs h' ids c n R where
  pos := a.pos
  node := a.node
  runs := a.runs.congr (fun x hx => (f.same x (a.bound x hx) (hd x hx)).1)
  vals := by rw [← a.vals]; exact List.map_congr_left (fun x hx => (f.same x (a.bound x hx) (hd x hx)).2)
  bound := fun x hx => Nat.lt_of_lt_of_le (a.bound x hx) f.mono
  nodup := a.nodup

/-- The same nodes under other indices. -/
theorem LCurIs.reindex {h : List (LNode T)} {ids ids' : List Nat} {c c' : LCur T} {n : Option Nat} {R : List Nat} (a : LCurIs h ids c n R)
    (hp : c'.pre = c.pre) (he : ends ids' c'.pos = ends ids c.pos) (hk : ∀ k, c'.pos = some k → k < ids'.length) : LCurIs h ids' c' n R where
  pos := hk
  node := by rw [he]; exact a.node
  runs := by rw [he]; exact a.runs
  vals := by rw [hp]; exact a.vals
  bound := a.bound
  nodup := a.nodup

/-- The first nodes of the live part leave the list. -/
theorem LCurIs.leave {h : List (LNode T)} {ids ids' B : List Nat} {sB : List T} {c c' : LCur T} {n : Option Nat} {R : List Nat}
    (a : LCurIs h ids c n R) (hd : ∀ x ∈ R, x ∉ ids) (hB : RunsTo h (ends ids' c'.pos) B) (hf : first (ends ids' c'.pos) B = ends ids c.pos)
    (hv : B.map (lval h) = sB.map some) (hp : c'.pre = c.pre ++ sB) (hsub : ∀ x ∈ B, x ∈ ids) (hn : B.Nodup) (hb : ∀ x ∈ B, x < h.length)
    (hk : ∀ k, c'.pos = some k → k < ids'.length) : LCurIs h ids' c' n (R ++ B) where
  pos := hk
  node := by rw [first_append, hf]; exact a.node
  runs := RunsTo.append hB (by rw [hf]; exact a.runs)
  vals := by rw [hp]; simp [a.vals, hv]
  bound := fun x hx => by
    rcases List.mem_append.1 hx with hx | hx
    · exact a.bound x hx
    · exact hb x hx
  nodup := by
    rw [List.nodup_append]
    exact ⟨a.nodup, hn, fun x hx y hy e => hd x hx (by rw [e]; exact hsub y hy)⟩

theorem LInv.drop_vals {h : List (LNode T)} {l : LL} {ids : List Nat} {s : List T} (i : LInv h l ids s) (k : Nat) :
    (ids.drop k).map (lval h) = (s.drop k).map some := by
  rw [List.map_drop, i.vals, List.map_drop]

theorem LCurIs.exec {h h' : List (LNode T)} {l l' : LL} {ids ids' : List Nat} {s : List T} {c : LCur T} {n : Option Nat} {R : List Nat}
    (i : LInv h l ids s) {op : LOp T} (i' : LInv h' l' ids' (LSeq.step s op).2) (f : LFrame h h' ids) (mv : LMove h h' ids ids' op)
    (hd : ∀ x ∈ R, x ∉ ids) (a : LCurIs h ids c n R) :
    ∃ R', LCurIs h' ids' (c.after s op) n R' ∧ ∀ x ∈ R', x ∈ R ∨ (x ∈ ids ∧ x ∉ ids') := by
  have hl := i.length_ids
  have af := a.frame f hd
  cases hc : c.pos with
  | none =>
    have hce : c.after s op = c := by simp [LCur.after, hc]
    rw [hce]
    exact ⟨R, af.reindex rfl (by rw [hc]; rfl) (by simp [hc]), fun x hx => .inl hx⟩
  | some k =>
    have hk := a.pos k hc
    have keep : ∀ (k' : Nat), c.after s op = ⟨c.pre, some k'⟩ → ids'[k']? = ids[k]? →
        ∃ R', LCurIs h' ids' (c.after s op) n R' ∧ ∀ x ∈ R', x ∈ R ∨ (x ∈ ids ∧ x ∉ ids') := by
      intro k' he hi
      rw [he]
      refine ⟨R, af.reindex rfl (by simp only [ends, hc, hi]) ?_, fun x hx => .inl hx⟩
      intro k'' hk''
      simp only [Option.some.injEq] at hk''
      subst hk''
      rw [List.getElem?_eq_getElem hk] at hi
      exact (List.getElem?_eq_some_iff.1 hi).1
    have all : c.after s op = ⟨c.pre ++ s.drop k, none⟩ → LFrame h h' [] → (∀ x ∈ ids, x ∉ ids') →
        ∃ R', LCurIs h' ids' (c.after s op) n R' ∧ ∀ x ∈ R', x ∈ R ∨ (x ∈ ids ∧ x ∉ ids') := by
      intro he fr hdj
      rw [he]
      refine ⟨R ++ ids.drop k, ?_, ?_⟩
      · have b := a.leave (c' := ⟨c.pre ++ s.drop k, none⟩) (ids' := ids') (B := ids.drop k) (sB := s.drop k) hd (i.ch.drop k).runsTo
          (by simp only [ends, hc]; exact first_drop k) (i.drop_vals k) rfl (fun x hx => List.mem_of_mem_drop hx)
          (i.nodup.sublist (List.drop_sublist k ids)) (fun x hx => i.bound x (List.mem_of_mem_drop hx)) (by simp)
        exact b.frame fr (by simp)
      · intro x hx
        rcases List.mem_append.1 hx with hx | hx
        · exact .inl hx
        · exact .inr ⟨List.mem_of_mem_drop hx, hdj x (List.mem_of_mem_drop hx)⟩
    have hsame : c = ⟨c.pre, some k⟩ := by cases c; simp at hc; simp [hc]
    cases op with
    | make vs =>
      exact all (by simp [LCur.after, hc]) mv.1 (fun x hx hx' => by have := mv.2 x hx'; have := i.bound x hx; omega)
    | clear =>
      obtain ⟨e1, e2⟩ := mv
      subst e2
      exact all (by simp [LCur.after, hc]) (LFrame.refl _ _) (by simp [e1])
    | pushFront v =>
      obtain ⟨p, e⟩ := mv
      exact keep (k + 1) (by simp [LCur.after, hc]) (by simp [e])
    | pushBack v =>
      obtain ⟨p, e⟩ := mv
      exact keep k (by simp only [LCur.after, hc]; exact hsame) (by rw [e, List.getElem?_append_left hk])
    | popFront =>
      obtain ⟨e1, e2⟩ := mv
      subst e2
      by_cases hk0 : k = 0
      · subst hk0
        cases ids with
        | nil => simp at hk
        | cons q r =>
          cases s with
          | nil => simp at hl
          | cons v s =>
            simp only [List.tail_cons] at e1
            subst e1
            simp only [List.length_cons, Nat.add_right_cancel_iff] at hl
            have hca : c.after (v :: s) .popFront = ⟨c.pre ++ [v], if (v :: s).length ≤ 1 then none else some 0⟩ := by
              simp [LCur.after, hc]
            rw [hca]
            have hv := i.vals
            have hnd := i.nodup
            rw [List.nodup_cons] at hnd
            simp only [List.map_cons, List.cons.injEq] at hv
            have he : ends ids' (if (v :: s).length ≤ 1 then none else some 0) = ids'.head? := by
              cases s with
              | nil =>
                have : ids' = [] := List.length_eq_zero_iff.1 hl
                simp [ends, this]
              | cons w s => simp [ends, List.head?_eq_getElem?]
            refine ⟨R ++ [q], ?_, ?_⟩
            · refine a.leave (sB := [v]) (B := [q]) hd ⟨?_, trivial⟩ (by simp [first, ends, hc]) (by simp [hv.1]) rfl (by simp) (by simp)
                (fun x hx => i.bound x (by simp at hx; simp [hx])) ?_
              · show lnx h' q = some (first (ends ids' (if (v :: s).length ≤ 1 then none else some 0)) [])
                rw [he]; exact i.ch.1
              · intro k' hk'
                by_cases h1 : (v :: s).length ≤ 1
                · simp only [h1, if_true] at hk'; exact absurd hk' (by simp)
                · simp only [h1, if_false, Option.some.injEq] at hk'
                  simp only [List.length_cons] at h1
                  omega
            · intro x hx
              simp only [List.mem_append, List.mem_singleton] at hx
              rcases hx with hx | rfl
              · exact .inl hx
              · exact .inr ⟨by simp, hnd.1⟩
      · refine keep (k - 1) (by simp [LCur.after, hc, hk0]) ?_
        rw [e1, List.getElem?_tail]
        congr 1
        omega
    | reverse =>
      have e : ids' = ids.reverse := mv
      refine keep (s.length - 1 - k) (by simp [LCur.after, hc]) ?_
      rw [e, List.getElem?_reverse (by omega)]
      congr 1
      omega
    | _ => exact keep k (by simp only [LCur.after, hc]; exact hsame) (by rw [show ids' = ids from mv])

theorem LCurIs.start {h : List (LNode T)} {l : LL} {ids : List Nat} {s : List T} (i : LInv h l ids s) :
    LCurIs h ids (LCur.start s) l.head [] where
  pos := fun k hk => by
    have hl := i.length_ids
    by_cases hs : s.length = 0
    · simp [LCur.start, List.length_eq_zero_iff.1 hs] at hk
    · simp only [LCur.start, hs, if_false, Option.some.injEq] at hk; omega
  node := by
    rw [i.head]
    have hl := i.length_ids
    by_cases hs : s.length = 0
    · rw [hs] at hl
      simp [LCur.start, List.length_eq_zero_iff.1 hs, first, ends, List.length_eq_zero_iff.1 hl]
    · simp [LCur.start, hs, first, ends, List.head?_eq_getElem?]
  runs := trivial
  vals := rfl
  bound := by simp
  nodup := by simp

/-- What the iterator is on: nothing, or a node with a value and a link. -/
theorem LCurIs.cases {h : List (LNode T)} {l : LL} {ids : List Nat} {s : List T} {c : LCur T} {n : Option Nat} {R : List Nat}
    (i : LInv h l ids s) (a : LCurIs h ids c n R) :
    (c.rest s = [] ∧ n = none ∧ c.next s = none ∧ c.pre = [] ∧ c.pos = none) ∨
    (∃ q v r n' d, c.rest s = v :: r ∧ n = some q ∧ lnx h q = some n' ∧ lval h q = some v ∧ c.next s = some d ∧ d.rest s = r ∧
      LCurIs h ids d n' R.tail ∧ q < h.length ∧ (c.pre = [] → ∃ k, c.pos = some k ∧ ids[k]? = some q ∧ k < s.length) ∧
      (∀ x p, c.pre = x :: p → R.head? = some q)) := by
  have hl := i.length_ids
  cases hp : c.pre with
  | nil =>
    have hR : R = [] := by
      have := a.vals; rw [hp] at this; simpa using this
    subst hR
    cases hc : c.pos with
    | none => left; exact ⟨by simp [LCur.rest, hp, hc], by rw [a.node, hc]; rfl, by simp [LCur.next, hp, hc], rfl, rfl⟩
    | some k =>
      right
      have hk := a.pos k hc
      have hks : k < s.length := by omega
      have hdi : ids.drop k = ids[k] :: ids.drop (k + 1) := List.drop_eq_getElem_cons hk
      have hds : s.drop k = s[k] :: s.drop (k + 1) := List.drop_eq_getElem_cons hks
      have hch := i.ch.drop k
      rw [hdi] at hch
      have hv := i.drop_vals k
      rw [hdi, hds] at hv
      simp only [List.map_cons, List.cons.injEq] at hv
      have hd : c.next s = some ⟨[], if k + 1 < s.length then some (k + 1) else none⟩ := by simp [LCur.next, hp, hc]
      refine ⟨ids[k], s[k], s.drop (k + 1), (ids.drop (k + 1)).head?, _, by simp [LCur.rest, hp, hc], ?_, hch.1, hv.1, hd, ?_, ?_,
        i.bound _ (List.getElem_mem hk), fun _ => ⟨k, rfl, List.getElem?_eq_getElem hk, hks⟩, by simp⟩
      · rw [a.node, hc]; simp [first, ends, hk]
      · by_cases h1 : k + 1 < s.length
        · simp [LCur.rest, h1]
        · simp [LCur.rest, h1, List.drop_eq_nil_of_le (by omega : s.length ≤ k + 1)]
      · refine ⟨?_, ?_, trivial, rfl, by simp, by simp⟩
        · intro k' hk'
          by_cases h1 : k + 1 < s.length
          · simp [h1] at hk'; omega
          · simp [h1] at hk'
        · simp only [List.tail_nil, first]
          by_cases h1 : k + 1 < s.length
          · simp [h1, ends, List.head?_drop]
          · simp only [h1, if_false, ends, List.head?_drop]
            exact List.getElem?_eq_none (by omega)
  | cons x p =>
    right
    cases R with
    | nil => have := a.vals; rw [hp] at this; simp at this
    | cons q R =>
      have hv := a.vals
      rw [hp] at hv
      simp only [List.map_cons, List.cons.injEq] at hv
      have hn := a.nodup
      rw [List.nodup_cons] at hn
      refine ⟨q, x, ({ c with pre := p } : LCur T).rest s, first (ends ids c.pos) R, { c with pre := p },
        by simp only [LCur.rest, hp, List.cons_append], a.node, a.runs.1, hv.1, by simp [LCur.next, hp], rfl, ?_,
        a.bound q (by simp), by simp, by simp⟩
      exact ⟨a.pos, rfl, a.runs.2, hv.2, fun y hy => a.bound y (List.mem_of_mem_tail hy), hn.2⟩

theorem LCurIs.collect {h : List (LNode T)} {l l0 : LL} {ids : List Nat} {s : List T} (i : LInv h l ids s) (r : List T) :
    ∀ {c : LCur T} {n : Option Nat} {R : List Nat} {fuel : Nat}, LCurIs h ids c n R → c.rest s = r → r.length < fuel →
    LIter.collect fuel ⟨n⟩ ⟨h, l0⟩ = .ok r ⟨h, l0⟩ := by
  induction r with
  | nil =>
    intro c n R fuel a hr hf
    obtain ⟨fuel, rfl⟩ : ∃ f, fuel = f + 1 := ⟨fuel - 1, by simp at hf; omega⟩
    rcases a.cases i with ⟨_, rfl, _⟩ | ⟨q, v, r', _, _, e, _⟩
    · simp [LIter.collect, LIter.isNotEnd]
    · rw [hr] at e; simp at e
  | cons v r ih =>
    intro c n R fuel a hr hf
    obtain ⟨fuel, rfl⟩ : ∃ f, fuel = f + 1 := ⟨fuel - 1, by simp at hf; omega⟩
    rcases a.cases i with ⟨e, _⟩ | ⟨q, v', r', n', d, e, rfl, e1, e2, e3, e4, b, _⟩
    · rw [hr] at e; simp at e
    · rw [hr] at e
      simp only [List.cons.injEq] at e
      obtain ⟨rfl, rfl⟩ := e
      have hrec := ih b e4 (fuel := fuel) (by simpa using hf)
      have hld := LS.load_view (l := l0) e1 e2
      simp [LIter.collect, LIter.isNotEnd, LIter.value, LIter.moveToNext, GoM.bind_def, hld, hrec]

/-! ## Any number of lists and iterators -/

structure LCInv (w : LCWorld T) (st : LCSpec T) (ids : Nat → List Nat) (R : Nat → List Nat) : Prop where
  inv : ∀ i, LInv w.heap (w.vars i) (ids i) (st.lists i)
  disj : ∀ i j, i ≠ j → ∀ q ∈ ids i, q ∉ ids j
  cur : ∀ c, LCurIs w.heap (ids (st.curs c).1) (st.curs c).2 (w.curs c).node (R c)
  out : ∀ c j, ∀ q ∈ R c, q ∉ ids j

theorem LCInv.init : LCInv (LCWorld.init : LCWorld T) LCSpec.init (fun _ => []) (fun _ => []) where
  inv := fun _ => LInv.zero _
  disj := by simp
  cur := fun _ => ⟨by simp [LCSpec.init], rfl, trivial, rfl, by simp, by simp⟩
  out := by simp

theorem LCInv.list [GoZero T] {w : LCWorld T} {st : LCSpec T} {ids R : Nat → List Nat} (I : LCInv w st ids R) (i : Nat) (op : LOp T) :
    ∃ ids' R', (w.step (.list i op)).1 = (LSeq.step (st.lists i) op).1 ∧
      LCInv (w.step (.list i op)).2 { lists := fun j => if j = i then (LSeq.step (st.lists i) op).2 else st.lists j
                                      curs := fun c => if (st.curs c).1 = i then (i, (st.curs c).2.after (st.lists i) op) else st.curs c } ids' R' := by
  obtain ⟨h', l', ids', e, i', f, hn, mv⟩ := (I.inv i).exec_moves op
  have key : ∀ c, ∃ R', LCurIs h' (if (st.curs c).1 = i then ids' else ids (st.curs c).1)
      (if (st.curs c).1 = i then (st.curs c).2.after (st.lists i) op else (st.curs c).2) (w.curs c).node R' ∧
      (∀ x ∈ R', x ∈ R c ∨ (x ∈ ids i ∧ x ∉ ids')) := by
    intro c
    by_cases hc : (st.curs c).1 = i
    · simp only [hc, if_true]
      have a := I.cur c
      rw [hc] at a
      exact a.exec (I.inv i) i' f mv (I.out c i)
    · simp only [hc, if_false]
      exact ⟨R c, (I.cur c).frame f (I.out c i), fun x hx => .inl hx⟩
  refine ⟨fun j => if j = i then ids' else ids j, fun c => Classical.choose (key c), ?_, ?_⟩
  · simp only [LCWorld.step, LCWorld.on, e]
  have hst : (w.step (.list i op)).2 = ⟨h', fun j => if j = i then l' else w.vars j, w.curs⟩ := by
    simp only [LCWorld.step, LCWorld.on, e, LCWorld.back]
  rw [hst]
  refine ⟨fun j => ?_, ?_, fun c => ?_, ?_⟩
  · by_cases hj : j = i
    · simp only [hj, if_true]; exact i'
    · simp only [hj, if_false]
      exact (I.inv j).frame f (I.disj j i hj)
  · intro a b hab q hq hq'
    by_cases ha : a = i <;> by_cases hb : b = i
    · exact hab (by rw [ha, hb])
    · simp only [ha, hb, if_true, if_false] at hq hq'
      rcases hn q hq with hq | hq
      · exact I.disj i b (Ne.symm hb) q hq hq'
      · have := (I.inv b).bound q hq'; omega
    · simp only [ha, hb, if_true, if_false] at hq hq'
      rcases hn q hq' with hq' | hq'
      · exact I.disj a i ha q hq hq'
      · have := (I.inv a).bound q hq; omega
    · simp only [ha, hb, if_false] at hq hq'
      exact I.disj a b hab q hq hq'
  · have := (Classical.choose_spec (key c)).1
    by_cases hc : (st.curs c).1 = i
    · simp only [hc, if_true] at this ⊢; exact this
    · simp only [hc, if_false] at this ⊢; exact this
  · intro c j q hq hq'
    rcases (Classical.choose_spec (key c)).2 q hq with hr | ⟨hr, hr'⟩
    · by_cases hj : j = i
      · simp only [hj, if_true] at hq'
        rcases hn q hq' with hq' | hq'
        · exact I.out c i q hr hq'
        · have := (I.cur c).bound q hr; omega
      · simp only [hj, if_false] at hq'
        exact I.out c j q hr hq'
    · by_cases hj : j = i
      · simp only [hj, if_true] at hq'
        exact hr' hq'
      · simp only [hj, if_false] at hq'
        exact I.disj i j (Ne.symm hj) q hr hq'

/-- Iterator `c` is replaced. -/
theorem LCInv.put {w : LCWorld T} {st : LCSpec T} {ids R : Nat → List Nat} (I : LCInv w st ids R) (c i : Nat) {d : LCur T} {n : Option Nat}
    {Rc : List Nat} (a : LCurIs w.heap (ids i) d n Rc) (hs : ∀ j, ∀ q ∈ Rc, q ∉ ids j) :
    LCInv { w with curs := fun x => if x = c then ⟨n⟩ else w.curs x } (st.put c i d) ids (fun x => if x = c then Rc else R x) where
  inv := I.inv
  disj := I.disj
  cur := fun x => by
    by_cases hx : x = c
    · simp only [LCSpec.put, hx, if_true]; exact a
    · simp only [LCSpec.put, hx, if_false]; exact I.cur x
  out := fun x j q hq => by
    by_cases hx : x = c
    · simp only [hx, if_true] at hq; exact hs j q hq
    · simp only [hx, if_false] at hq; exact I.out x j q hq

theorem LInv.set {h : List (LNode T)} {l : LL} {ids : List Nat} {s : List T} (i : LInv h l ids s) {k q : Nat} (hq : ids[k]? = some q) (v : T)
    (l0 : LL) : ∃ h', LS.setVal (some q) v ⟨h, l0⟩ = .ok () ⟨h', l0⟩ ∧ LInv h' l ids (s.set k v) ∧ LFrame h h' [q] := by
  obtain ⟨hk, rfl⟩ := List.getElem?_eq_some_iff.1 hq
  have hl := i.length_ids
  obtain ⟨h', e, en, ev, el⟩ := LS.setVal_view (l := l0) v (i.bound _ (List.getElem_mem hk))
  refine ⟨h', e, ⟨i.head, i.tail, i.nodup, i.ch.congr (fun x _ => en x), ?_, by simp [i.len], fun x hx => by have := i.bound x hx; omega⟩,
    by omega, fun x _ hx => ⟨en x, by rw [ev]; simp at hx; simp [hx]⟩⟩
  apply List.ext_getElem?
  intro m
  have hv := congrArg (·[m]?) i.vals
  simp only [List.getElem?_map] at hv ⊢
  by_cases hm : m = k
  · subst hm
    rw [List.getElem?_set_self (by omega)]
    simp [List.getElem?_eq_getElem hk, ev]
  · rw [List.getElem?_set_ne (Ne.symm hm), ← hv]
    cases hx : ids[m]? with
    | none => rfl
    | some x =>
      obtain ⟨hm', rfl⟩ := List.getElem?_eq_some_iff.1 hx
      have : ids[m] ≠ ids[k] := fun e => hm ((List.getElem?_inj hm' i.nodup).1
        (by rw [List.getElem?_eq_getElem hm', List.getElem?_eq_getElem hk, e]))
      simp [ev, this]

theorem LCInv.step [GoZero T] {w : LCWorld T} {st : LCSpec T} {ids R : Nat → List Nat} (I : LCInv w st ids R) {op : LCOp T} {o : DObs T}
    {st' : LCSpec T} (hs : st.step op = some (o, st')) : ∃ ids' R', (w.step op).1 = o ∧ LCInv (w.step op).2 st' ids' R' := by
  cases op with
  | list i op =>
    simp only [LCSpec.step, Option.some.injEq, Prod.mk.injEq] at hs
    obtain ⟨rfl, rfl⟩ := hs
    exact I.list i op
  | iterate c i =>
    simp only [LCSpec.step, Option.some.injEq, Prod.mk.injEq] at hs
    obtain ⟨rfl, rfl⟩ := hs
    have hst : w.step (.iterate c i) = (.unit, { w with curs := fun x => if x = c then ⟨(w.vars i).head⟩ else w.curs x }) := by
      simp only [LCWorld.step, LL.iterate, GoM.bind_def, GoM.get_apply, GoM.pure_apply, LCWorld.on, LCWorld.back, Prod.mk.injEq, true_and]
      congr 1
      funext j
      by_cases hj : j = i <;> simp [hj]
    rw [hst]
    exact ⟨_, _, rfl, I.put c i (LCurIs.start (I.inv i)) (by simp)⟩
  | isNotEnd c =>
    simp only [LCSpec.step, Option.some.injEq, Prod.mk.injEq] at hs
    obtain ⟨rfl, rfl⟩ := hs
    refine ⟨ids, R, ?_, I⟩
    rcases (I.cur c).cases (I.inv _) with ⟨e, e1, _⟩ | ⟨q, v, r, n', d, e, e1, _⟩
    · simp [LCWorld.step, LIter.isNotEnd, e1, e]
    · simp [LCWorld.step, LIter.isNotEnd, e1, e]
  | value c =>
    rcases (I.cur c).cases (I.inv _) with ⟨e, e1, _⟩ | ⟨q, v, r, n', d, e, e1, e2, e3, _⟩
    · simp only [LCSpec.step, e, Option.some.injEq, Prod.mk.injEq] at hs
      obtain ⟨rfl, rfl⟩ := hs
      have hst : w.step (.value c) = (.panicked, w) := by
        simp [LCWorld.step, LIter.value, GoM.bind_def, LS.observe, LS.load, e1, LCWorld.free]
      rw [hst]
      exact ⟨ids, R, rfl, I⟩
    · simp only [LCSpec.step, e, Option.some.injEq, Prod.mk.injEq] at hs
      obtain ⟨rfl, rfl⟩ := hs
      have hst : w.step (.value c) = (.val v, w) := by
        have := LS.load_view (l := {}) e2 e3
        simp [LCWorld.step, LIter.value, GoM.bind_def, LS.observe, e1, LCWorld.free, this]
      rw [hst]
      exact ⟨ids, R, rfl, I⟩
  | next c =>
    rcases (I.cur c).cases (I.inv _) with ⟨_, e1, e, _⟩ | ⟨q, v, r, n', d, _, e1, e2, e3, e, _, b, _⟩
    · simp only [LCSpec.step, e, Option.some.injEq, Prod.mk.injEq] at hs
      obtain ⟨rfl, rfl⟩ := hs
      have hst : w.step (.next c) = (.panicked, w) := by
        simp [LCWorld.step, LIter.moveToNext, GoM.bind_def, LS.load, e1, LCWorld.free]
      rw [hst]
      exact ⟨ids, R, rfl, I⟩
    · simp only [LCSpec.step, e, Option.some.injEq, Prod.mk.injEq] at hs
      obtain ⟨rfl, rfl⟩ := hs
      have hst : w.step (.next c) = (.unit, { w with curs := fun x => if x = c then ⟨n'⟩ else w.curs x }) := by
        have := LS.load_view (l := {}) e2 e3
        simp [LCWorld.step, LIter.moveToNext, GoM.bind_def, e1, LCWorld.free, this]
      rw [hst]
      exact ⟨_, _, rfl, I.put c _ b (fun j q hq => I.out c j q (List.mem_of_mem_tail hq))⟩
  | set c v =>
    rcases (I.cur c).cases (I.inv _) with ⟨_, e1, _, e, e'⟩ | ⟨q, v', r, n', d, _, e1, _, _, _, _, _, _, hk, _⟩
    · simp only [LCSpec.step, e, e', Option.some.injEq, Prod.mk.injEq] at hs
      obtain ⟨rfl, rfl⟩ := hs
      have hst : w.step (.set c v) = (.panicked, w) := by
        simp [LCWorld.step, LS.setVal, LS.observe, e1, LCWorld.free]
      rw [hst]
      exact ⟨ids, R, rfl, I⟩
    · cases hp : (st.curs c).2.pre with
      | cons _ _ => simp [LCSpec.step, hp] at hs
      | nil =>
        obtain ⟨k, hc, hq, hks⟩ := hk hp
        simp only [LCSpec.step, hp, hc, Option.some.injEq, Prod.mk.injEq] at hs
        obtain ⟨rfl, rfl⟩ := hs
        obtain ⟨h', e2, i', f⟩ := (I.inv (st.curs c).1).set hq v {}
        have hst : w.step (.set c v) = (.unit, { w with heap := h' }) := by
          simp [LCWorld.step, LS.observe, e1, LCWorld.free, e2]
        rw [hst]
        have hqm : q ∈ ids (st.curs c).1 := List.mem_of_getElem? hq
        refine ⟨ids, R, rfl, fun j => ?_, I.disj, fun x => ?_, I.out⟩
        · by_cases hj : j = (st.curs c).1
          · subst hj; simp only [if_true]; exact i'
          · simp only [hj, if_false]
            exact (I.inv j).frame f (fun x hx hx' => by
              simp only [List.mem_singleton] at hx'
              subst hx'
              exact I.disj j _ hj x hx hqm)
        · exact (I.cur x).frame f (fun y hy hy' => by
            simp only [List.mem_singleton] at hy'
            subst hy'
            exact I.out x _ y hy hqm)

theorem LCInv.run [GoZero T] (ops : List (LCOp T)) : ∀ {w : LCWorld T} {st : LCSpec T} {ids R : Nat → List Nat}, LCInv w st ids R →
    ∀ {os : List (DObs T)} {st' : LCSpec T}, st.run ops = some (os, st') →
    ∃ ids' R', (w.run ops).1 = os ∧ LCInv (w.run ops).2 st' ids' R' := by
  induction ops with
  | nil =>
    intro w st ids R I os st' h
    simp only [LCSpec.run, Option.some.injEq, Prod.mk.injEq] at h
    obtain ⟨rfl, rfl⟩ := h
    exact ⟨ids, R, rfl, I⟩
  | cons op ops ih =>
    intro w st ids R I os st' h
    simp only [LCSpec.run] at h
    cases hs : st.step op with
    | none => simp [hs] at h
    | some r =>
      obtain ⟨o, st1⟩ := r
      simp only [hs] at h
      cases hr : st1.run ops with
      | none => simp [hr] at h
      | some r =>
        obtain ⟨os', st2⟩ := r
        simp only [hr, Option.some.injEq, Prod.mk.injEq] at h
        obtain ⟨rfl, rfl⟩ := h
        obtain ⟨ids1, R1, e1, I1⟩ := I.step hs
        obtain ⟨ids2, R2, e2, I2⟩ := ih I1 hr
        exact ⟨ids2, R2, by simp [LCWorld.run, e1, e2], I2⟩

end Stl4go
