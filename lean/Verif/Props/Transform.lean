import Verif.Proofs.TransformOverlap
import Verif.Proofs.TransformFill
/-!
# Properties C50-C58: `/repo/transform.go`

`m` is any memory and every slice any well-formed header into it, so any two slices may share cells unless a hypothesis says otherwise.
`σ` is the state of a callback. `OnlyIn`, `Fresh` and `Into` (`Spec/Transform.lean`) say which cells a call may have changed.
-/
namespace Stl4go
variable {T R σ : Type}

/-- A memory holding `xs` from address 0, for the examples. -/
def memOf (xs : List Int) : Mem Int := { cell := fun k => xs[k]?.getD 0, top := xs.length }

/-! ## C50 -/

/-- C50: `Copy` returns the contents of `a` in storage of its own. -/
theorem C50_copy [GoZero T] (grow : Nat → Nat → Nat) (a : Sl) (m : Mem T) :
    ∃ r m', copySlice grow a m = .ok r m' ∧ Fresh m m' r ∧ r.read m' = a.read m := copySlice_eq grow a m

/-- C50: `CopyTo` returns the contents `a` had at the call, whatever the overlap, in `to`'s array without allocating if they fit. -/
theorem C50_copyTo [GoZero T] (grow : Nat → Nat → Nat) (a to : Sl) (m : Mem T) (ht : to.WF m) :
    ∃ r m', copyTo grow a to m = .ok r m' ∧ Into m to m' r (a.read m) := copyTo_into grow a to m ht

example : (∃ m', copyTo (fun _ n => n) ⟨0, 3, 3⟩ ⟨1, 0, 4⟩ (memOf [1, 2, 3, 4, 5]) = .ok ⟨1, 3, 4⟩ m' ∧ Sl.read m' ⟨0, 5, 5⟩ = [1, 1, 2, 3, 5]) :=
  ⟨_, rfl, by decide⟩

/-! ## C51 -/

/-- C51: after `Fill` every element is `v` and nothing else changed. -/
theorem C51_fill (a : Sl) (m : Mem T) (v : T) (ha : a.WF m) (hlen : a.len ≤ 2 ^ 62) :
    ∃ m', fill a v m = .ok () m' ∧ a.read m' = List.replicate a.len v ∧ OnlyIn m m' a :=
  ⟨_, fill_eq a m v ha hlen, Sl.read_write_self _ _ _ (by simp), onlyIn_write _ _ _ (by simp)⟩

/-- C51: both versions of `FillZero`. -/
theorem C51_fillZero [GoZero T] (a : Sl) (m : Mem T) (ha : a.WF m) :
    (∃ m', fillZero a m = .ok () m' ∧ a.read m' = List.replicate a.len GoZero.zero ∧ OnlyIn m m' a) ∧
    (a.len ≤ 2 ^ 62 → ∃ m', fillZeroOld a m = .ok () m' ∧ a.read m' = List.replicate a.len GoZero.zero ∧ OnlyIn m m' a) :=
  ⟨⟨_, rfl, Sl.read_write_self _ _ _ (by simp), onlyIn_write _ _ _ (by simp)⟩, fun h => C51_fill a m GoZero.zero ha h⟩

/-- C51: after `FillPattern` element `i` is `p[i mod len(p)]`, for the values `p` had at the call, also when `p` overlaps `a`. -/
theorem C51_fillPattern (a p : Sl) (m : Mem T) (ha : a.WF m) (hlen : a.len ≤ 2 ^ 62) (hp : 0 < p.len) :
    ∃ m', fillPattern a p m = .ok () m' ∧ OnlyIn m m' a ∧
      ∀ i, i < a.len → (a.read m')[i]? = (p.read m)[i % p.len]? := by
  have hne : p.read m ≠ [] := List.ne_nil_of_length_pos (by simpa using hp)
  refine ⟨_, fillPattern_eq a p m ha hlen hne, onlyIn_write _ _ _ (by simp [cycle]), ?_⟩
  intro i hi
  rw [Sl.read_write_self _ _ _ (by simp [cycle]), List.getElem?_eq_getElem (by simpa [cycle] using hi),
    List.getElem?_eq_getElem (by simpa using Nat.mod_lt i hp)]
  simp [cycle]

/-- C51: `FillPattern` panics exactly when the pattern is empty, and then nothing changed. -/
theorem C51_fillPattern_panics (a p : Sl) (m : Mem T) (ha : a.WF m) (hlen : a.len ≤ 2 ^ 62) :
    (∃ m', fillPattern a p m = .panic m') ↔ p.len = 0 := by
  constructor
  · rintro ⟨m', h⟩
    apply Decidable.byContradiction
    intro hp
    obtain ⟨m'', e, _⟩ := C51_fillPattern a p m ha hlen (by omega)
    rw [e] at h
    cases h
  · intro h
    exact ⟨m, by unfold fillPattern; rw [if_pos h]; rfl⟩

/-- C51, why the length is bounded: `Fill` doubles its counter past 2^63 on anything longer, and panics. -/
theorem C51_fill_huge (a : Sl) (m : Mem T) (v : T) (ha : a.WF m) (hlen : 2 ^ 62 < a.len) : ∃ m', fill a v m = .panic m' :=
  fill_huge a m v ha hlen

example : ∃ m', fillPattern ⟨1, 5, 5⟩ ⟨0, 2, 6⟩ (memOf [7, 8, 1, 2, 3, 4]) = .ok () m' ∧ Sl.read m' ⟨0, 6, 6⟩ = [7, 7, 8, 7, 8, 7] :=
  ⟨_, rfl, by decide⟩

/-! ## C52, C53 -/

/-- C52: `Transform` replaces each element by what `op` returns for it, called once per element in order. -/
theorem C52_transform (a : Sl) (op : σ → T → σ × T) (t : σ) (m : Mem T) :
    ∃ m', transform a op t m = .ok (mapS op t (a.read m)).1 m' ∧ a.read m' = (mapS op t (a.read m)).2 ∧ OnlyIn m m' a :=
  ⟨_, transform_eq a op m t, Sl.read_write_self _ _ _ (by simp [mapS_length]), onlyIn_write _ _ _ (by simp [mapS_length])⟩

/-- C52: the same for an `op` without state. -/
theorem C52_transform_map (a : Sl) (op : T → T) (m : Mem T) :
    ∃ m', transform a (fun (_ : Unit) v => ((), op v)) () m = .ok () m' ∧ a.read m' = (a.read m).map op ∧ OnlyIn m m' a := by
  obtain ⟨m', e, hr, ho⟩ := C52_transform a (fun (_ : Unit) v => ((), op v)) () m
  exact ⟨m', e, by rw [hr, mapS_map], ho⟩

/-- C52: `TransformCopy` returns the results in new storage and changes nothing that was there; element types equal or different. -/
theorem C52_transformCopy [GoZero T] [GoZero R] (a : Sl) (op : σ → T → σ × T) (xs : List T) (op' : σ → T → σ × R) (t : σ) (m : Mem T) (m2 : Mem R) (ha : a.WF m) :
    (∃ r m', transformCopy a op t m = .ok ((mapS op t (a.read m)).1, r) m' ∧ Fresh m m' r ∧ r.read m' = (mapS op t (a.read m)).2) ∧
    (∃ r m', transformCopyOther xs op' t m2 = .ok ((mapS op' t xs).1, r) m' ∧ Fresh m2 m' r ∧ r.read m' = (mapS op' t xs).2) :=
  ⟨transformCopy_eq a op t m ha, transformCopyOther_eq xs op' t m2⟩

/-- C52: `TransformTo` returns the results in `b`'s array if they fit there, when `b` starts no later than `a` or after its end; when the
element types differ the slices cannot overlap and there is no condition. -/
theorem C52_transformTo [GoZero T] [GoZero R] (grow : Nat → Nat → Nat) (a b : Sl) (op : σ → T → σ × T) (xs : List T) (op' : σ → T → σ × R) (b2 : Sl) (t : σ)
    (m : Mem T) (m2 : Mem R) (ha : a.WF m) (hb : b.WF m) (hb2 : b2.WF m2) :
    (b.off ≤ a.off ∨ a.off + a.len ≤ b.off →
      ∃ r m', transformTo grow a op t b m = .ok ((mapS op t (a.read m)).1, r) m' ∧ Into m b m' r (mapS op t (a.read m)).2) ∧
    (∃ r m', transformToOther grow xs op' t b2 m2 = .ok ((mapS op' t xs).1, r) m' ∧ Into m2 b2 m' r (mapS op' t xs).2) :=
  ⟨transformTo_eq grow a b op t m ha hb, transformToOther_eq grow xs b2 op' t m2 hb2⟩

example : ∃ m', transformTo (fun _ n => n) ⟨1, 3, 3⟩ (fun (_ : Unit) v => ((), v * 10)) () ⟨0, 4, 4⟩ (memOf [1, 2, 3, 4]) = .ok ((), ⟨0, 3, 4⟩) m' ∧
    Sl.read m' ⟨0, 3, 4⟩ = [20, 30, 40] := ⟨_, rfl, by decide⟩

/-- C53: the statement. -/
def C53_statement : Prop :=
  ∀ (T : Type) [GoZero T] (grow : Nat → Nat → Nat) (a b : Sl) (op : T → T) (m : Mem T), a.WF m → b.WF m →
    ∃ r m', transformTo grow a (fun (_ : Unit) v => ((), op v)) () b m = .ok ((), r) m' ∧ r.read m' = (a.read m).map op

/-- C53 is false of the code: with `b` starting inside `a`, elements are overwritten before they are read. -/
theorem C53_counterexample : ¬ C53_statement := by
  intro h
  obtain ⟨r, m', e, hr⟩ := h Int (fun _ n => n) ⟨0, 3, 4⟩ ⟨1, 0, 3⟩ id (memOf [1, 2, 3, 4]) ⟨by decide, by decide⟩ ⟨by decide, by decide⟩
  have e2 : ∃ m2, transformTo (fun _ n => n) ⟨0, 3, 4⟩ (fun (_ : Unit) v => ((), id v)) () ⟨1, 0, 3⟩ (memOf [1, 2, 3, 4]) = .ok ((), ⟨1, 3, 3⟩) m2 ∧
    Sl.read m2 ⟨1, 3, 3⟩ = [1, 1, 1] := ⟨_, rfl, by decide⟩
  obtain ⟨m2, e2, h2⟩ := e2
  rw [e2] at e
  cases e
  rw [h2] at hr
  exact absurd hr (by decide)

/-- What holds for C53. Full statement: `C53_statement`. Proved: every `b` that starts no later than `a` or not before its end. Missing: `b`
starting strictly inside `a`, for which it is false; what the results are then is `C53_overlap`. -/
theorem C53_transformTo_partial [GoZero T] (grow : Nat → Nat → Nat) (a b : Sl) (op : T → T) (m : Mem T) (ha : a.WF m) (hb : b.WF m)
    (hov : b.off ≤ a.off ∨ a.off + a.len ≤ b.off) :
    ∃ r m', transformTo grow a (fun (_ : Unit) v => ((), op v)) () b m = .ok ((), r) m' ∧ r.read m' = (a.read m).map op := by
  obtain ⟨r, m', e, h⟩ := transformTo_eq grow a b (fun (_ : Unit) v => ((), op v)) () m ha hb hov
  exact ⟨r, m', e, by rw [h.read, mapS_map]⟩

/-- C53, the rest: with `b` starting `d > 0` after the start of `a`, the call of `op` number `k` gets its own result number `k - d` in place of
`a[k]` if that result went to `b`'s array, and `a[k]` otherwise. With the length this determines the results. `b`'s array holds as many of
them as it has room for. -/
theorem C53_overlap [GoZero T] (grow : Nat → Nat → Nat) (a b : Sl) (op : T → T) (m : Mem T) (ha : a.WF m) (hb : b.WF m) (d : Nat)
    (hd : b.off = a.off + d) (hpos : 0 < d) :
    ∃ rs r m', transformTo grow a (fun (_ : Unit) v => ((), op v)) () b m = .ok ((), r) m' ∧ Into m b m' r rs ∧ rs.length = a.len ∧
      (∀ k, k < a.len → rs[k]? = (if d ≤ k ∧ k < d + b.cap then rs[k - d]? else (a.read m)[k]?).map op) ∧
      (∀ k, k < a.len → k < b.cap → rs[k]? = some (m'.cell (b.off + k))) := by
  obtain ⟨rs, r, m', e, hl, h⟩ := transformTo_overlap grow a b op m ha hb (by omega)
  refine ⟨rs, r, m', e, ⟨h.read, h.wf, h.top, h.fits, h.moves, ?_⟩, hl, ?_, ?_⟩
  · intro k hk hout
    have := h.cells k hk
    rw [if_neg (by omega)] at this
    exact Option.some.inj this
  · intro k hk
    have := h.chain k (by omega)
    rwa [show b.off - a.off = d by omega] at this
  · intro k hk hc
    have := h.cells (b.off + k) (by have := hb.2; omega)
    rw [if_pos (by omega), Nat.add_sub_cancel_left] at this
    exact this.symm

example : (match transformTo (fun _ n => n) ⟨0, 7, 7⟩ (fun (_ : Unit) v => ((), v + 10)) () ⟨2, 1, 3⟩ (memOf [1, 2, 3, 4, 5, 6, 7]) with
    | .ok r m' => some (r.2.read m', Sl.read m' ⟨0, 7, 7⟩)
    | _ => none) = some ([11, 12, 21, 22, 31, 16, 17], [1, 2, 11, 12, 21, 6, 7]) := by decide +kernel

/-! ## C54 -/

/-- C54: `Replace` changes exactly the elements equal to `old`. -/
theorem C54_replace [GoEq T] (a : Sl) (old new : T) (m : Mem T) :
    ∃ m', replace a old new m = .ok () m' ∧ OnlyIn m m' a ∧
      ∀ i (h : i < (a.read m).length), (a.read m')[i]? = some (if GoEq.eq (a.read m)[i] old then new else (a.read m)[i]) := by
  refine ⟨_, replace_eq a old new m, onlyIn_write _ _ _ (by simp), ?_⟩
  intro i h
  rw [Sl.read_write_self _ _ _ (by simp), List.getElem?_map, List.getElem?_eq_getElem h]
  rfl

/-- C54: `ReplaceIf` asks the predicate once for each element in order and changes exactly the elements it accepted. -/
theorem C54_replaceIf (a : Sl) (pred : σ → T → σ × Bool) (new : T) (t : σ) (m : Mem T) :
    ∃ m', replaceIf a pred new t m = .ok (mapS pred t (a.read m)).1 m' ∧ OnlyIn m m' a ∧
      ∀ i (h : i < (a.read m).length),
        (a.read m')[i]? = some (if (mapS pred t (a.read m)).2[i]'(by rw [mapS_length]; exact h) then new else (a.read m)[i]) := by
  have key : ∀ (l : List T) (t : σ), (mapS (fun t v => ((pred t v).1, if (pred t v).2 then new else v)) t l).1 = (mapS pred t l).1 ∧
      ∀ i (h : i < l.length), (mapS (fun t v => ((pred t v).1, if (pred t v).2 then new else v)) t l).2[i]? =
        some (if (mapS pred t l).2[i]'(by rw [mapS_length]; exact h) then new else l[i]) := by
    intro l
    induction l with
    | nil => intro t; exact ⟨rfl, fun i h => absurd h (by simp)⟩
    | cons x l ih =>
      intro t
      obtain ⟨h1, h2⟩ := ih (pred t x).1
      refine ⟨by simp [mapS, h1], ?_⟩
      intro i h
      cases i with
      | zero => rfl
      | succ i => exact h2 i (by simpa using h)
  obtain ⟨k1, k2⟩ := key (a.read m) t
  refine ⟨_, by rw [replaceIf_eq a pred new m t, k1], onlyIn_write _ _ _ (by simp [mapS_length]), ?_⟩
  intro i h
  rw [Sl.read_write_self _ _ _ (by simp [mapS_length])]
  exact k2 i h

example : ∃ m', replace ⟨1, 3, 3⟩ 2 9 (memOf [2, 2, 3, 2, 2]) = .ok () m' ∧ Sl.read m' ⟨0, 5, 5⟩ = [2, 9, 3, 9, 2] := ⟨_, rfl, by decide⟩

/-! ## C55 -/

/-- C55: `Unique` returns the start of `a` holding its elements with each run of equal neighbours collapsed to its first. -/
theorem C55_unique [GoEq T] (hE : PartialEq T) (a : Sl) (m : Mem T) (ha : a.WF m) :
    ∃ r m', unique a m = .ok r m' ∧ r.off = a.off ∧ r.cap = a.cap ∧ r.read m' = collapse (a.read m) ∧ OnlyIn m m' a := by
  obtain ⟨junk, hl, e⟩ := unique_eq hE a m ha
  refine ⟨_, _, e, rfl, rfl, ?_, onlyIn_write _ _ _ (by omega)⟩
  have := Sl.read_sub (m.write a.off (collapse (a.read m) ++ junk)) a 0 (collapse (a.read m)).length a.cap (by simp at hl; omega)
  rw [Sl.read_write_self _ _ _ hl.symm] at this
  simpa using this

/-- C55: `UniqueCopy` returns the same in new storage and leaves everything else alone. -/
theorem C55_uniqueCopy [GoEq T] [GoZero T] (hE : PartialEq T) (grow : Nat → Nat → Nat) (a : Sl) (m : Mem T) (ha : a.WF m) :
    ∃ r m', uniqueCopy grow a m = .ok r m' ∧ Fresh m m' r ∧ r.read m' = collapse (a.read m) := uniqueCopy_eq hE grow a m ha

theorem PartialEq.of_lawful [GoOrd T] [LawfulGoOrd T] : PartialEq T where
  symm a b h := by rw [LawfulGoOrd.eq_iff] at h ⊢; exact h.symm
  trans a b c h1 h2 := by
    rw [LawfulGoOrd.eq_iff] at h1 h2 ⊢
    exact ⟨LawfulGoOrd.weak.incomp a b c h1.1 h1.2 h2.1 h2.2, LawfulGoOrd.weak.incomp c b a h2.2 h2.1 h1.2 h1.1⟩

/-- C55: on ascending input the result has no two equal elements, and an element equal to each one of the input. -/
theorem C55_sorted [GoOrd T] [LawfulGoOrd T] (l : List T) (hs : l.Pairwise (fun x y => GoOrd.lt y x = false)) :
    (collapse l).Pairwise (fun x y => GoEq.eq x y = false ∧ GoEq.eq y x = false) ∧
    (∀ x ∈ l, ∃ y ∈ collapse l, GoEq.eq x y = true) ∧ (collapse l).Sublist l := by
  have W := LawfulGoOrd.weak (T := T)
  have E := PartialEq.of_lawful (T := T)
  have refl : ∀ x : T, GoEq.eq x x = true := fun x => by rw [LawfulGoOrd.eq_iff]; exact ⟨W.irrefl x, W.irrefl x⟩
  have key : ∀ (l : List T) (p : T), (p :: l).Pairwise (fun x y => GoOrd.lt y x = false) →
      (∀ y ∈ starts p l, GoOrd.lt p y = true) ∧ (starts p l).Pairwise (fun x y => GoOrd.lt x y = true) ∧
      (∀ x ∈ l, ∃ y ∈ p :: starts p l, GoEq.eq x y = true) ∧ (starts p l).Sublist l := by
    intro l
    induction l with
    | nil => intro p _; simp [starts]
    | cons x l ih =>
      intro p hp
      obtain ⟨h1, h2, h3, h4⟩ := ih x (List.Pairwise.of_cons hp)
      have hpx : GoOrd.lt x p = false := (List.pairwise_cons.mp hp).1 x (by simp)
      simp only [starts]
      by_cases he : GoEq.eq p x = true
      · have he' := (LawfulGoOrd.eq_iff p x).mp he
        rw [if_pos he]
        have lift : ∀ y, GoOrd.lt x y = true → GoOrd.lt p y = true := by
          intro y hy
          apply Decidable.byContradiction
          intro hn
          have hn' : GoOrd.lt p y = false := by simpa using hn
          have hyp : GoOrd.lt y p = false := by
            apply Decidable.byContradiction
            intro hc
            have := W.trans x y p hy (by simpa using hc)
            rw [he'.2] at this
            cases this
          have := W.incomp x p y he'.2 he'.1 hn' hyp
          rw [this] at hy
          cases hy
        refine ⟨fun y hy => lift y (h1 y hy), h2, ?_, h4.cons _⟩
        intro z hz
        rcases List.mem_cons.mp hz with rfl | hz
        · exact ⟨p, by simp, E.symm _ _ he⟩
        · obtain ⟨y, hy, hzy⟩ := h3 z hz
          rcases List.mem_cons.mp hy with rfl | hy
          · exact ⟨p, by simp, E.trans _ _ _ hzy (E.symm _ _ he)⟩
          · exact ⟨y, by simp [hy], hzy⟩
      · rw [if_neg he]
        have hlt : GoOrd.lt p x = true := by
          apply Decidable.byContradiction
          intro hn
          exact he ((LawfulGoOrd.eq_iff p x).mpr ⟨by simpa using hn, hpx⟩)
        refine ⟨?_, List.pairwise_cons.mpr ⟨h1, h2⟩, ?_, h4.cons_cons _⟩
        · intro y hy
          rcases List.mem_cons.mp hy with rfl | hy
          · exact hlt
          · exact W.trans _ _ _ hlt (h1 y hy)
        · intro z hz
          rcases List.mem_cons.mp hz with rfl | hz
          · exact ⟨z, by simp, refl z⟩
          · obtain ⟨y, hy, hzy⟩ := h3 z hz
            exact ⟨y, List.mem_cons_of_mem _ hy, hzy⟩
  cases l with
  | nil => simp [collapse]
  | cons p l =>
    obtain ⟨h1, h2, h3, h4⟩ := key l p hs
    refine ⟨?_, ?_, h4.cons_cons _⟩
    · apply List.Pairwise.imp (R := fun x y => GoOrd.lt x y = true)
      · intro x y h
        constructor
        · apply Decidable.byContradiction
          intro hc
          have := ((LawfulGoOrd.eq_iff x y).mp (by simpa using hc)).1
          rw [h] at this; cases this
        · apply Decidable.byContradiction
          intro hc
          have := ((LawfulGoOrd.eq_iff y x).mp (by simpa using hc)).2
          rw [h] at this; cases this
      · exact List.pairwise_cons.mpr ⟨h1, h2⟩
    · intro x hx
      rcases List.mem_cons.mp hx with rfl | hx
      · exact ⟨x, by simp [collapse], refl x⟩
      · exact h3 x hx

example : ∃ m', unique ⟨0, 6, 6⟩ (memOf [1, 1, 2, 3, 3, 1]) = .ok ⟨0, 4, 6⟩ m' ∧ Sl.read m' ⟨0, 4, 6⟩ = [1, 2, 3, 1] := ⟨_, rfl, by decide⟩
example : collapse [NanInt.nan, .nan, .num 1, .num 1] = [.nan, .nan, .num 1] := by decide

/-! ## C56 -/

/-- C56: `Remove` keeps exactly the elements not equal to `x`, in order, at the start of `a`. -/
theorem C56_remove [GoEq T] (a : Sl) (x : T) (m : Mem T) (ha : a.WF m) :
    ∃ r m', remove a x m = .ok r m' ∧ r.off = a.off ∧ r.cap = a.cap ∧ r.read m' = (a.read m).filter (fun v => !GoEq.eq v x) ∧ OnlyIn m m' a := by
  obtain ⟨junk, hl, e⟩ := remove_eq a x m ha
  refine ⟨_, _, e, rfl, rfl, ?_, onlyIn_write _ _ _ (by omega)⟩
  rw [rejectS_filter] at hl ⊢
  have := Sl.read_sub (m.write a.off ((a.read m).filter (fun v => !GoEq.eq v x) ++ junk)) a 0 ((a.read m).filter (fun v => !GoEq.eq v x)).length a.cap
    (by rw [List.length_append] at hl; omega)
  rw [Sl.read_write_self _ _ _ hl.symm] at this
  simpa using this

/-- C56: `RemoveCopy` returns the same in new storage and leaves everything else alone. -/
theorem C56_removeCopy [GoEq T] [GoZero T] (grow : Nat → Nat → Nat) (a : Sl) (x : T) (m : Mem T) (ha : a.WF m) :
    ∃ r m', removeCopy grow a x m = .ok r m' ∧ Fresh m m' r ∧ r.read m' = (a.read m).filter (fun v => !GoEq.eq v x) := by
  obtain ⟨r, m', e, h, hr⟩ := removeCopy_eq grow a x m ha
  exact ⟨r, m', e, h, by rw [hr, rejectS_filter]⟩

/-- C56: `RemoveIf` asks `cond` once for each element in order and keeps exactly those for which it said false. -/
theorem C56_removeIf (a : Sl) (cond : σ → T → σ × Bool) (t : σ) (m : Mem T) (ha : a.WF m) :
    ∃ r m', removeIf a cond t m = .ok ((rejectS cond t (a.read m)).1, r) m' ∧ r.off = a.off ∧ r.cap = a.cap ∧
      r.read m' = (rejectS cond t (a.read m)).2 ∧ OnlyIn m m' a := by
  obtain ⟨junk, hl, e⟩ := removeIf_eq a cond m t ha
  refine ⟨_, _, e, rfl, rfl, ?_, onlyIn_write _ _ _ (by omega)⟩
  have := Sl.read_sub (m.write a.off ((rejectS cond t (a.read m)).2 ++ junk)) a 0 (rejectS cond t (a.read m)).2.length a.cap
    (by rw [List.length_append] at hl; omega)
  rw [Sl.read_write_self _ _ _ hl.symm] at this
  simpa using this

/-- C56: for a `cond` without state this is a filter. -/
theorem C56_removeIf_filter (a : Sl) (cond : T → Bool) (m : Mem T) (ha : a.WF m) :
    ∃ r m', removeIf a (fun (_ : Unit) v => ((), cond v)) () m = .ok ((), r) m' ∧ r.read m' = (a.read m).filter (fun v => !cond v) := by
  obtain ⟨r, m', e, _, _, hr, _⟩ := C56_removeIf a (fun (_ : Unit) v => ((), cond v)) () m ha
  exact ⟨r, m', e, by rw [hr, rejectS_filter]⟩

/-- C56: `RemoveIfCopy` returns the same in new storage and leaves everything else alone. -/
theorem C56_removeIfCopy [GoZero T] (grow : Nat → Nat → Nat) (a : Sl) (cond : σ → T → σ × Bool) (t : σ) (m : Mem T) (ha : a.WF m) :
    ∃ r m', removeIfCopy grow a cond t m = .ok ((rejectS cond t (a.read m)).1, r) m' ∧ Fresh m m' r ∧
      r.read m' = (rejectS cond t (a.read m)).2 := removeIfCopy_eq grow a cond m t ha

example : ∃ m', removeIf ⟨1, 4, 4⟩ (fun n v => (n + 1, v % 2 == 0)) 0 (memOf [1, 2, 3, 4, 5]) = .ok (4, ⟨1, 2, 4⟩) m' ∧
    Sl.read m' ⟨0, 3, 3⟩ = [1, 3, 5] := ⟨_, rfl, by decide⟩

/-! ## C57 -/

/-- C57: `Reverse` turns element `i` into the old element `len-1-i`. -/
theorem C57_reverse (a : Sl) (m : Mem T) :
    ∃ m', reverse a m = .ok () m' ∧ OnlyIn m m' a ∧ ∀ i, i < a.len → (a.read m')[i]? = (a.read m)[a.len - 1 - i]? := by
  refine ⟨_, reverse_eq a m, onlyIn_write _ _ _ (by simp), ?_⟩
  intro i hi
  rw [Sl.read_write_self _ _ _ (by simp), List.getElem?_reverse (by simpa using hi)]
  simp

/-- C57: reversing twice restores the memory. -/
theorem C57_involution (a : Sl) (m : Mem T) : (do reverse a; reverse a : GoM (Mem T) Unit) m = .ok () m := by
  simp only [GoM.bind_def, reverse_eq]
  rw [Sl.read_write_self _ _ _ (by simp), List.reverse_reverse, Mem.write_write _ _ _ _ (by simp), Sl.write_read]

/-- C57: `ReverseCopy` returns in new storage what `Reverse` would leave in `a`, and changes nothing. -/
theorem C57_reverseCopy [GoZero T] (grow : Nat → Nat → Nat) (a : Sl) (m : Mem T) (ha : a.WF m) :
    ∃ r m' m2, reverseCopy grow a m = .ok r m' ∧ Fresh m m' r ∧ reverse a m = .ok () m2 ∧ r.read m' = a.read m2 := by
  obtain ⟨r, m', e, h, hr⟩ := reverseCopy_eq grow a m ha
  exact ⟨r, m', _, e, h, reverse_eq a m, by rw [hr, Sl.read_write_self _ _ _ (by simp)]⟩

example : ∃ m', reverse ⟨1, 4, 4⟩ (memOf [1, 2, 3, 4, 5]) = .ok () m' ∧ Sl.read m' ⟨0, 5, 5⟩ = [1, 5, 4, 3, 2] := ⟨_, rfl, by decide⟩

/-! ## C58 -/

/-- C58: whatever pairs of positions `rand.Shuffle` draws, the elements are a permutation of the old ones and nothing else changed. -/
theorem C58_shuffle (a : Sl) (m : Mem T) (draws : List (Nat × Nat)) (hd : ∀ d ∈ draws, d.1 < a.len ∧ d.2 < a.len) :
    ∃ m', shuffle a draws m = .ok () m' ∧ (a.read m').Perm (a.read m) ∧ OnlyIn m m' a := by
  obtain ⟨ys, e, hp⟩ := shuffle_eq a m draws (a.read m) (by simp) hd
  rw [Sl.write_read] at e
  have hl : ys.length = a.len := by simpa using hp.length_eq
  exact ⟨_, e, by rw [Sl.read_write_self _ _ _ hl]; exact hp, onlyIn_write _ _ _ (by omega)⟩

example : ∃ m', shuffle ⟨0, 4, 4⟩ [(3, 1), (2, 2), (1, 0)] (memOf [1, 2, 3, 4]) = .ok () m' ∧ Sl.read m' ⟨0, 4, 4⟩ = [4, 1, 3, 2] :=
  ⟨_, rfl, by decide⟩

end Stl4go
