import Verif.Proofs.SkipListAny
/-!
# Properties C90-C93: `/repo/skiplist.go` with a comparison that obeys no law

`impl` is either implementation with an arbitrary comparison: any compare function (a pure one: the same two keys always give
the same result), or operators `==` and `<` related in no way, which includes floats with NaN. `impl.same a b` says that `a`
and `b` compare equal. `LooseStep` and `LooseRun` (`Spec/SkipListAny.lean`) are the specification; `sl.Holds l` says that
iterating over `sl` yields `l`.
-/
namespace Stl4go
variable {K V : Type}
variable {impl : SLImpl K} {h : List (Nat × SMOp K V)} {sl : SL K V} {l : List (K × V)}

private theorem Holds.eq {ids : List Nat} {m : List (K × V)} (hi : SLLoose sl ids m) (hl : sl.Holds l) : m = l := by
  have := hi.holds
  rw [SL.Holds, hl] at this
  injection this with this
  exact this.symm

/-! ## C90: nothing is lost, invented or corrupted -/

/-- C90: every history runs without panic or endless loop, and each operation touches at most the one entry it may touch. -/
theorem C90_history (impl : SLImpl K) (h : List (Nat × SMOp K V)) :
    ∃ sl obs l, SL.run impl newSkipList h = .ret (sl, obs) ∧ LooseRun impl.same [] (opsOf h) obs l ∧ sl.Holds l ∧
      sl.length = l.length := by
  obtain ⟨sl, ids, l, obs, a1, a2, a3⟩ := SLInv.runA impl h (SLInv.new (V := V) (fun _ _ => true))
  exact ⟨sl, obs, l, a1, a3, a2.holds, by rw [SL.length, a2.len_eq, a2.len_m]⟩

/-- C90: the same for one operation on any list a history built; the entries before and after are those iteration shows. -/
theorem C90_step (hb : SL.Built impl h sl) (rnd : Nat) (op : SMOp K V) :
    ∃ l sl' ob l', sl.Holds l ∧ sl.exec impl rnd op = .ret (sl', ob) ∧ LooseStep impl.same l op ob l' ∧ sl'.Holds l' ∧
      sl'.length = l'.length := by
  obtain ⟨ids, l, hi⟩ := hb.loose
  obtain ⟨sl', ids', l', ob, a1, a2, a3⟩ := hi.execA impl rnd op
  exact ⟨l, sl', ob, l', hi.holds, a1, a3, a2.holds, by rw [SL.length, a2.len_eq, a2.len_m]⟩

/-- NaN keys: each insertion adds an entry, none is found or removed, the other keys stay reachable. -/
example : (SL.run (.ordered (inferInstance : GoOrd NanInt)) newSkipList
      [(2 ^ 37, .insert (.num 5) 50), (2 ^ 39, .insert .nan 1), (2 ^ 38, .insert .nan 2), (0, .len), (0, .find .nan), (0, .remove .nan),
       (0, .find (.num 5)), (0, .iterate)] >>= fun r => .ret r.2) =
    .ret [.unit, .unit, .unit, .num 3, .val none, .flag false, .val (some (50 : Int)),
      .entries [(.num 5, 50), (.nan, 1), (.nan, 2)]] := by decide +kernel

/-- A compare function for which every key is smaller than every other one. -/
example : (SL.run (.func (fun a b : Int => if a = b then 0 else -1)) newSkipList
      [(2 ^ 39, .insert 1 10), (2 ^ 37, .insert 2 20), (2 ^ 39, .insert 3 30), (0, .find 1), (0, .remove 3), (0, .iterate)]
        >>= fun r => .ret r.2) =
    .ret [.unit, .unit, .unit, .val none, .flag true, .entries [(1, (10 : Int)), (2, 20)]] := by decide +kernel

/-! ## C91: Insert and Find agree -/

/-- C91: `Insert` adds an entry exactly when `Find` gave nil just before; otherwise it writes the entry `Find` gave. -/
theorem C91_insert_find (hb : SL.Built impl h sl) (hl : sl.Holds l) (rnd : Nat) (k : K) (v : V) :
    ∃ sl' l', sl.insert impl rnd k v = .ret sl' ∧ sl'.Holds l' ∧
      ((sl.find impl k = .ret none ∧ Added k v l l' ∧ sl'.length = sl.length + 1) ∨
       (∃ p A e B, sl.find impl k = .ret (some p) ∧ l = A ++ e :: B ∧ sl.readPtr p = .ret e.2 ∧ impl.same e.1 k = true ∧
          l' = A ++ (e.1, v) :: B ∧ sl'.readPtr p = .ret v ∧ sl'.length = sl.length)) := by
  obtain ⟨ids, m, hi⟩ := hb.loose
  obtain rfl := Holds.eq hi hl
  rcases hi.search (impl.dec k) with ⟨iG, iR, G, R, p⟩ | ⟨iG, q, iS, G, e, S, p⟩
  · obtain ⟨sl', a1, a2, _⟩ := hi.insert_missA p rnd v
    refine ⟨sl', _, a1, a2.holds, .inl ⟨hi.findNode_missA p, ⟨G, R, p.m_eq, rfl⟩, ?_⟩⟩
    rw [SL.length, SL.length, a2.len_eq, hi.len_eq, a2.len_m, hi.len_m, p.m_eq]
    simp; omega
  · obtain ⟨sl', a1, a2, a3⟩ := hi.insert_hitA p rnd v
    obtain ⟨n, hn, _, hv⟩ := SL.kv_some p.kq
    obtain ⟨n', hn', _, hv'⟩ := SL.kv_some a3.kq
    refine ⟨sl', _, a1, a2.holds, .inr ⟨q, G, e, S, hi.findNode_hitA p, p.m_eq, ?_, p.same, rfl, ?_, ?_⟩⟩
    · simp [SL.readPtr, SL.deref, idx_of_get hn, hv]
    · simp [SL.readPtr, SL.deref, idx_of_get hn', hv']
    · rw [SL.length, SL.length, a2.len_eq, hi.len_eq]

/-! ## C92: read your write -/

/-- C92: after `Insert(k, v)`, `Find(k)` gives `v`, if `k` compares equal to itself or was found before. -/
theorem C92_insert_then_find (hb : SL.Built impl h sl) (rnd : Nat) (k : K) (v : V)
    (hk : impl.same k k = true ∨ sl.has impl k = .ret true) :
    ∃ sl' p, sl.insert impl rnd k v = .ret sl' ∧ sl'.find impl k = .ret (some p) ∧ sl'.readPtr p = .ret v := by
  obtain ⟨ids, m, hi⟩ := hb.loose
  rcases hi.search (impl.dec k) with ⟨iG, iR, G, R, p⟩ | ⟨iG, q, iS, G, e, S, p⟩
  · rcases hk with hk | hk
    · obtain ⟨sl', a1, a2, a3, a4, a5, a6, a7⟩ := hi.insert_missA p rnd v
      have p' := p.after_insert hk a3 a4 a5 a6 a7
      obtain ⟨n, hn, _, hv⟩ := SL.kv_some p'.kq
      exact ⟨sl', _, a1, a2.findNode_hitA p', by simp [SL.readPtr, SL.deref, idx_of_get hn, hv]⟩
    · simp [SL.has, hi.findNode_missA p] at hk
  · obtain ⟨sl', a1, a2, p'⟩ := hi.insert_hitA p rnd v
    obtain ⟨n, hn, _, hv⟩ := SL.kv_some p'.kq
    exact ⟨sl', _, a1, a2.findNode_hitA p', by simp [SL.readPtr, SL.deref, idx_of_get hn, hv]⟩

/-- The condition is needed: a NaN that was just inserted is not found. -/
theorem C92_needs_self : ∃ sl : SL NanInt Int, newSkipList.insert (.ordered inferInstance) 0 .nan 1 = .ret sl ∧
    sl.find (.ordered inferInstance) .nan = .ret none := by
  obtain ⟨sl', l', a1, _, ⟨_, _, _⟩ | ⟨p, A, e, B, _, e1, _⟩⟩ :=
    C91_insert_find (impl := .ordered (inferInstance : GoOrd NanInt)) (h := []) (sl := newSkipList) (l := ([] : List (NanInt × Int)))
      ⟨[], rfl⟩ (SLInv.new (fun _ _ => true)).holds 0 .nan 1
  · refine ⟨sl', a1, ?_⟩
    have : (newSkipList.insert (.ordered (inferInstance : GoOrd NanInt)) 0 .nan (1 : Int) >>= fun s =>
      s.find (.ordered inferInstance) .nan) = .ret none := by decide +kernel
    rwa [a1] at this
  · simp at e1

/-! ## C93: Remove undoes Insert -/

/-- C93: if `Find(k)` gave nil and `k` compares equal to itself, `Insert(k, v)` followed by `Remove(k)` returns true and leaves
the entries, and their order, as they were. -/
theorem C93_insert_then_remove (hb : SL.Built impl h sl) (hl : sl.Holds l) (rnd : Nat) (k : K) (v : V)
    (hk : impl.same k k = true) (hn : sl.has impl k = .ret false) :
    ∃ sl' sl'', sl.insert impl rnd k v = .ret sl' ∧ sl'.remove impl k = .ret (sl'', true) ∧ sl''.Holds l ∧
      sl''.length = sl.length := by
  obtain ⟨ids, m, hi⟩ := hb.loose
  obtain rfl := Holds.eq hi hl
  rcases hi.search (impl.dec k) with ⟨iG, iR, G, R, p⟩ | ⟨iG, q, iS, G, e, S, p⟩
  · obtain ⟨sl', a1, a2, a3, a4, a5, a6, a7⟩ := hi.insert_missA p rnd v
    have p' := Miss.after_insertP hi p hk a3 a4 a5 a6 a7
    rcases a2.removeA p' with ⟨q, iS, e, S, sl'', e1, e2, _, b1, b2⟩ | ⟨hno, _⟩
    · injection e1 with _ e1
      injection e2 with _ e2
      subst e1 e2
      rw [← p.m_eq] at b2
      exact ⟨sl', sl'', a1, b1, b2.holds, by rw [SL.length, SL.length, b2.len_eq, hi.len_eq, b2.len_m, hi.len_m]⟩
    · have := hno _ _ rfl
      rw [hk] at this
      simp at this
  · simp [SL.has, hi.findNode_hitA p] at hn

/-- Non-trivial case for C91-C93: an inconsistent comparison, three entries, a key that is not there. -/
def exAnyCmp : SLImpl Int := .func (fun a b => if a = b then 0 else if a % 2 = 0 then 1 else -1)

def exAnyHist : List (Nat × SMOp Int Int) := [(2 ^ 39, .insert 1 10), (2 ^ 37, .insert 2 20), (2 ^ 38, .insert 4 40)]

example : (SL.run exAnyCmp newSkipList exAnyHist >>= fun r => do
      let b ← r.1.has exAnyCmp 6
      let it ← r.1.iterate
      let l ← r.1.observeIter it
      return (b, l)) = .ret (false, [(1, 10), (4, 40), (2, 20)]) ∧ exAnyCmp.same 6 6 = true := by decide +kernel

end Stl4go
