import Verif.Props.SkipListWeak
/-!
# Properties C123, C124: `FindRange` of `/repo/skiplist.go` while the map changes
-/
namespace Stl4go
variable {K V : Type} {impl : SLImpl K}

/-- C123, full statement (false, see `C123_counterexample`): an iterator of `FindRange(a, b)`, `a ≤ b`, that is moved only while it is not at
its end and that says that it is not at its end, has a key, which is at most `b`. -/
def C123_statement : Prop :=
  ∀ (ops more : List (SCOp Int Int)) (c : Nat) (a b : Int), a ≤ b → (∀ op ∈ more, op.setsCur c = false) →
    (∀ pre, pre ++ [.next c] <+: more →
      (((SCWorld.init.run exImpl (ops ++ .findRange c a b :: pre)).2).step exImpl (.isNotEnd c)).1 = .of (.flag true)) →
    (((SCWorld.init.run exImpl (ops ++ .findRange c a b :: more)).2).step exImpl (.isNotEnd c)).1 = .of (.flag true) →
    ∃ k, (((SCWorld.init.run exImpl (ops ++ .findRange c a b :: more)).2).step exImpl (.key c)).1 = .key k ∧ k ≤ b

/-- C123 is false: the range from 1 to 1 ends at the entry 5; when that one is removed, the iterator does not find its end any more. -/
theorem C123_counterexample : ¬ C123_statement := by
  intro h
  obtain ⟨k, h1, _⟩ := h [.map 0 (.insert 1 10), .map 0 (.insert 5 50)] [.map 0 (.remove 5), .next 0] 0 1 1 (by decide)
    (by simp [SCOp.setsCur]) (by
      intro pre hp
      obtain ⟨t, ht⟩ := hp
      match pre, t, ht with
      | [_], [], ht => simp at ht; obtain ⟨rfl⟩ := ht; decide +kernel
      | [_, .next _], _, ht => simp at ht) (by decide +kernel)
  have e : (((SCWorld.init.run exImpl ([.map 0 (.insert 1 10), .map 0 (.insert 5 50)] ++ .findRange 0 1 1 ::
      [.map 0 (.remove 5), .next 0])).2).step exImpl (.key 0)).1 = (.of .panicked : SCObs Int Int) := by decide +kernel
  rw [e] at h1; cases h1

/-- C123 is false also if nothing is removed: an entry inserted between `b` and the next key is shown. -/
theorem C123_counterexample_insert : ¬ C123_statement := by
  intro h
  obtain ⟨k, h1, h2⟩ := h [.map 0 (.insert 1 10), .map 0 (.insert 9 90)] [.map 0 (.insert 7 70), .next 0] 0 1 5 (by decide)
    (by simp [SCOp.setsCur]) (by
      intro pre hp
      obtain ⟨t, ht⟩ := hp
      match pre, t, ht with
      | [_], [], ht => simp at ht; obtain ⟨rfl⟩ := ht; decide +kernel
      | [_, .next _], _, ht => simp at ht) (by decide +kernel)
  have e : (((SCWorld.init.run exImpl ([.map 0 (.insert 1 10), .map 0 (.insert 9 90)] ++ .findRange 0 1 5 ::
      [.map 0 (.insert 7 70), .next 0])).2).step exImpl (.key 0)).1 = (.key 7 : SCObs Int Int) := by decide +kernel
  rw [e] at h1; cases h1; exact absurd h2 (by decide)

/-- C123, what holds: if the first key `q` after `b` is not removed (and the map not cleared), the iterator has a key at all times; it is
before `q` exactly as long as the iterator says that it is not at its end. Missing: the case that `q` is removed; and the keys shown are
only limited by `q`, not by `b`. -/
theorem C123_range_partial (hl : impl.Lawful) (ops more : List (SCOp K V)) (c : Nat) (a b q : K) (hab : impl.less b a = false)
    (hq : SMap.succ impl.less (SCSpec.init.run impl.less ops).2.map b = some q)
    (hc : ∀ op ∈ more, op.setsCur c = false ∧ op.removesKey impl.less q = false)
    (hd : ∀ pre, pre ++ [.next c] <+: more →
      (((SCWorld.init.run impl (ops ++ .findRange c a b :: pre)).2).step impl (.isNotEnd c)).1 = .of (.flag true)) :
    ∃ k, (((SCWorld.init.run impl (ops ++ .findRange c a b :: more)).2).step impl (.key c)).1 = .key k ∧
      ((((SCWorld.init.run impl (ops ++ .findRange c a b :: more)).2).step impl (.isNotEnd c)).1 = .of (.flag true) ∧ impl.less k q = true ∨
       (((SCWorld.init.run impl (ops ++ .findRange c a b :: more)).2).step impl (.isNotEnd c)).1 = .of (.flag false) ∧
        sameKey impl.less k q = true) := by
  have hw := hl.weak
  have ok := (SOk.run hw c ops (SOk.init : SOk impl.less (SCSpec.init : SCSpec K V))).1
  have ok1 := (ok.step hw (.findRange c a b)).1
  obtain ⟨⟨v, hv⟩, hbq⟩ := SMap.succ_mem hq
  have hfind : (SMap.find impl.less q (SCSpec.init.run impl.less ops).2.map).isSome = true := by
    obtain ⟨G, S, sp⟩ := SSplit.at hw ok.sorted hv
    rw [SMap.find_split sp]; rfl
  have hqa : impl.less q a = false := hw.asymm (hw.lt_of_not_of_lt hab hbq)
  have hb := ok.before_new hw (op := .findRange c a b) (c := c) (q := q) (by simp [SCOp.startsBefore, hqa]) hfind
  have hst : (((SCSpec.init.run impl.less ops).2.step impl.less (.findRange c a b)).2.curs c).stop = some (.live q) := by
    simp [SCSpec.step, SCSpec.put, hq]
  have split : ∀ l : List (SCOp K V), (SCSpec.init.run impl.less (ops ++ .findRange c a b :: l)).2 =
      (((SCSpec.init.run impl.less ops).2.step impl.less (.findRange c a b)).2.run impl.less l).2 := by
    intro l; rw [SCSpec.run_append]; rfl
  obtain ⟨r1, r2, r3⟩ := SOk.range_run hw c more hc ok1 hfind hb hst (fun pre hp => by
    have := hd pre hp
    obtain ⟨ids, D, I⟩ := SCInv.after hl (ops ++ .findRange c a b :: pre)
    rw [(I.step hl (.isNotEnd c)).1, split] at this
    simpa [SCSpec.step] using this)
  obtain ⟨k, k1, k2⟩ := (r1.curs c).at_stop hw r2 r3
  obtain ⟨ids, D, I⟩ := SCInv.after hl (ops ++ .findRange c a b :: more)
  refine ⟨k, by rw [key_ahead hl, split]; exact k1, ?_⟩
  rw [(I.step hl (.isNotEnd c)).1, split]
  rcases k2 with ⟨k2, k3⟩ | ⟨k2, k3⟩
  · exact .inr ⟨by show SCObs.of (SMObs.flag _) = _; rw [k2]; rfl, k3⟩
  · exact .inl ⟨by show SCObs.of (SMObs.flag _) = _; rw [k2]; rfl, k3⟩

/-! ## C124: removing a range -/

/-- C124: `for it := sl.FindRange(a, b); it.IsNotEnd(); { k := it.Key(); sl.Remove(k); it.MoveToNext() }` with `a ≤ b` ends without a panic and
removes exactly the entries with keys from `a` to `b`, both included; so does the loop that moves on before it removes. -/
theorem C124_erase (hl : impl.Lawful) (early : Bool) (ops : List (SCOp K V)) (c : Nat) (a b : K) (hab : impl.less b a = false) :
    let m := (SCSpec.init.run impl.less ops).2.map
    let w := (SCWorld.init.run impl (ops ++ [.findRange c a b])).2
    ∀ fuel, (m.filter (fun e => !(impl.less e.1 a) && !(impl.less b e.1))).length < fuel →
      ∃ w', SCWorld.eraseLoop impl early c fuel w = .ret w' ∧
        (w'.step impl (.map 0 .iterate)).1 = .of (.entries (m.filter (fun e => impl.less e.1 a || impl.less b e.1))) := by
  intro m w fuel hf
  have hw := hl.weak
  obtain ⟨ids, D, I⟩ := SCInv.after hl ops
  obtain ⟨ids', D', J⟩ := SCInv.after hl (ops ++ [.findRange c a b])
  have hs : SMap.Sorted impl.less m := I.base.inv.sorted
  obtain ⟨G, H, S, sp⟩ := SSplit.exists hw a m hs
  obtain ⟨G', H', S', sp'⟩ := SSplit.exists hw b m hs
  -- the three parts of the map
  have eL : m.filter (fun e => impl.less e.1 a) = G := by
    have h2 : H.filter (fun e => impl.less e.1 a) = [] := List.filter_eq_nil_iff.2 (fun e he => by simp [sp.hit e he])
    have h3 : S.filter (fun e => impl.less e.1 a) = [] := List.filter_eq_nil_iff.2 (fun e he => by simp [hw.asymm (sp.stop e he)])
    rw [sp.eq, List.filter_append, List.filter_append, List.filter_eq_self.2 sp.go, h2, h3]; simp
  have eR := SMap.upper_split hw sp'
  let M := (H ++ S).filter (fun e => !(impl.less b e.1))
  have eHS : H ++ S = M ++ S' := by
    have h1 : (H ++ S).Pairwise (fun x y => impl.less x.1 y.1 = true) := by
      have := hs; unfold SMap.Sorted at this; rw [sp.eq] at this; exact (List.pairwise_append.1 this).2.1
    have h2 : (H ++ S).filter (fun e => impl.less b e.1) = S' := by
      rw [← eR, sp.eq, List.filter_append (l₁ := G)]
      have : G.filter (fun e => impl.less b e.1) = [] := List.filter_eq_nil_iff.2 (fun e he => by
        have := sp.go e he
        cases hx : impl.less b e.1 with
        | false => simp
        | true => rw [hw.trans _ _ _ hx this] at hab; cases hab)
      rw [this]; rfl
    rw [← h2]
    show H ++ S = (H ++ S).filter _ ++ (H ++ S).filter _
    generalize H ++ S = T at h1
    clear h2 eR eL
    induction T with
    | nil => rfl
    | cons x T ih =>
      obtain ⟨p1, p2⟩ := List.pairwise_cons.1 h1
      cases hx : impl.less b x.1 with
      | false => simp only [List.filter_cons, hx]; simp only [Bool.not_false, if_true, Bool.false_eq_true, if_false, List.cons_append]; rw [← ih p2]
      | true =>
        have e1 : (x :: T).filter (fun e => !(impl.less b e.1)) = [] := List.filter_eq_nil_iff.2 (fun e he => by
          rcases List.mem_cons.1 he with rfl | he
          · simp [hx]
          · simp [hw.trans _ _ _ hx (p1 e he)])
        have e2 : (x :: T).filter (fun e => impl.less b e.1) = x :: T := List.filter_eq_self.2 (fun e he => by
          rcases List.mem_cons.1 he with rfl | he
          · exact hx
          · exact hw.trans _ _ _ hx (p1 e he))
        rw [e1, e2]; rfl
  have em : m = G ++ (M ++ S') := by rw [sp.eq, eHS]
  have eM : m.filter (fun e => !(impl.less e.1 a) && !(impl.less b e.1)) = M := by
    rw [show (fun e : K × V => !(impl.less e.1 a) && !(impl.less b e.1)) = (fun e => (!(impl.less b e.1)) && !(impl.less e.1 a)) from
      funext (fun e => Bool.and_comm _ _), ← List.filter_filter, SMap.lower_split hw sp]
  have eOut : m.filter (fun e => impl.less e.1 a || impl.less b e.1) = G ++ S' := by
    rw [em, List.filter_append, List.filter_append]
    have h1 : G.filter (fun e => impl.less e.1 a || impl.less b e.1) = G := List.filter_eq_self.2 (fun e he => by simp [sp.go e he])
    have h3 : S'.filter (fun e => impl.less e.1 a || impl.less b e.1) = S' := List.filter_eq_self.2 (fun e he => by simp [sp'.stop e he])
    have h2 : M.filter (fun e => impl.less e.1 a || impl.less b e.1) = [] := List.filter_eq_nil_iff.2 (fun e he => by
      rw [← eM] at he
      have := (List.mem_filter.1 he).2
      simp at this ⊢; exact this)
    rw [h1, h2, h3]; rfl
  have hmap : (SCSpec.init.run impl.less (ops ++ [.findRange c a b])).2.map = m := by rw [SCSpec.run_append]; rfl
  have hcur : (SCSpec.init.run impl.less (ops ++ [.findRange c a b])).2.curs c =
      { start := SMap.first impl.less m a, stop := (SMap.succ impl.less m b).map .live } := by
    rw [SCSpec.run_append]; simp [SCSpec.run, SCSpec.step, SCSpec.put, m]
  obtain ⟨w', s', i', d', r1, r2, r3⟩ := SCInv.erase hl early c S' G M J (by rw [hmap, em]) (by rw [hcur])
    (by rw [hcur]; simp only; rw [SMap.first_split hw sp, eHS]) (by rw [hcur]; simp only; rw [SMap.succ_split hw sp']) fuel (by rw [← eM]; exact hf)
  refine ⟨w', r1, ?_⟩
  rw [(r2.step hl (.map 0 .iterate)).1, eOut, ← r3]
  rfl

/-! ## Concrete cases -/

/-- Keys 1, 5, 9, 12 and the range from 2 to 9, both ways to write the loop. -/
example : ∀ early : Bool, (SCWorld.eraseLoop exImpl early 0 10 ((SCWorld.init.run exImpl [.map (2 ^ 37) (.insert 5 50), .map 0 (.insert 12 120),
      .map (2 ^ 39) (.insert 9 90), .map (2 ^ 38) (.insert 1 10), .findRange 0 2 9]).2) >>= fun w => .ret (w.step exImpl (.map 0 .iterate)).1) =
    .ret (.of (.entries [(1, 10), (12, 120)])) := by decide +kernel

/-- `C123_range_partial` applies here: 7 is inserted under the iterator and shown, 9 is its end. -/
example : ((SCWorld.init.run exImpl [.map 0 (.insert 1 10), .map 0 (.insert 9 90), .findRange 0 1 5, .isNotEnd 0, .map 0 (.insert 7 70),
    .map 0 (.remove 1), .next 0, .isNotEnd 0, .key 0, .next 0, .isNotEnd 0, .key 0]).1 : List (SCObs Int Int)) =
    [.of .unit, .of .unit, .of .unit, .of (.flag true), .of .unit, .of (.flag true), .of .unit, .of (.flag true), .key 7, .of .unit,
      .of (.flag false), .key 9] := by decide +kernel

end Stl4go
