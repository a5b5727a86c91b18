import Verif.Props.BuiltinSet
import Verif.Spec.BuiltinSetLaws
/-!
# C176: the laws of set algebra

`SetExpr.eval` makes the calls of an expression of `Union`, `Intersection` and `Difference`. An identity of set algebra, such as De Morgan's laws, is a pair of expressions that hold for
the same elements whatever the sets are, which can be found out with a truth table. So the theorems below are about all identities at once.
-/
namespace Stl4go
variable {K : Type} [GoEq K]

theorem RefOk.later {n n' : Nat} (h : n ≤ n') : ∀ {r : MRef}, RefOk n r → RefOk n' r
  | none, _ => trivial
  | some _, hr => Nat.lt_of_lt_of_le hr h

theorem SetExpr.Ok.mono {n n' : Nat} (h : n ≤ n') : ∀ {e : SetExpr}, e.Ok n → e.Ok n'
  | .var _, he => RefOk.later h he
  | .union _ _, he => ⟨mono h he.1, mono h he.2⟩
  | .inter _ _, he => ⟨mono h he.1, mono h he.2⟩
  | .diff _ _, he => ⟨mono h he.1, mono h he.2⟩

theorem set_old {w w' : MWorld K} (h : ∀ i, i < w.next → w'.maps i = w.maps i) {r : MRef} (hr : RefOk w.next r) : w'.set r = w.set r := by
  cases r with
  | none => rfl
  | some i => funext k; simp only [MWorld.set, MWorld.keysOf, h i hr]

theorem set_all {w w' : MWorld K} (h : w'.maps = w.maps) (r : MRef) : w'.set r = w.set r := by
  cases r with
  | none => rfl
  | some i => funext k; simp only [MWorld.set, MWorld.keysOf, h]

theorem SetExpr.holds_old {w w' : MWorld K} (h : ∀ i, i < w.next → w'.maps i = w.maps i) (k : K) {e : SetExpr} (he : e.Ok w.next) :
    e.holds (fun r => w'.set r k) = e.holds (fun r => w.set r k) := by
  induction e with
  | var r => simp only [SetExpr.holds, set_old h he]
  | union a b iha ihb => simp only [SetExpr.holds, iha he.1, ihb he.2]
  | inter a b iha ihb => simp only [SetExpr.holds, iha he.1, ihb he.2]
  | diff a b iha ihb => simp only [SetExpr.holds, iha he.1, ihb he.2]

/-- C176, expressions: evaluating one does not panic. The result has the elements the expression says, and all sets there were before are as before. -/
theorem C176_eval [LawfulGoEq K] (rt : MapRt K) (hrt : rt.Fair) (e : SetExpr) (w : MWorld K) (hw : w.Proper) (he : e.Ok w.next) :
    ∃ r w', e.eval rt w = .ok r w' ∧ w'.Proper ∧ RefOk w'.next r ∧ (∀ k, w'.set r k = e.holds (fun r => w.set r k)) ∧
      w.next ≤ w'.next ∧ ∀ i, i < w.next → w'.maps i = w.maps i := by
  -- both operands, then the method
  have two : ∀ (a b : SetExpr) (f : MRef → MRef → GoM (MWorld K) MRef) (g : Bool → Bool → Bool),
      (∀ w : MWorld K, w.Proper → a.Ok w.next → ∃ r w', a.eval rt w = .ok r w' ∧ w'.Proper ∧ RefOk w'.next r ∧ (∀ k, w'.set r k = a.holds (fun r => w.set r k)) ∧
        w.next ≤ w'.next ∧ ∀ i, i < w.next → w'.maps i = w.maps i) →
      (∀ w : MWorld K, w.Proper → b.Ok w.next → ∃ r w', b.eval rt w = .ok r w' ∧ w'.Proper ∧ RefOk w'.next r ∧ (∀ k, w'.set r k = b.holds (fun r => w.set r k)) ∧
        w.next ≤ w'.next ∧ ∀ i, i < w.next → w'.maps i = w.maps i) →
      (∀ (w : MWorld K) (r o : MRef), w.Proper → RefOk w.next r → RefOk w.next o → ∃ w', f r o w = .ok (some w.next) w' ∧ w'.next = w.next + 1 ∧ w'.Proper ∧
        (∀ k, w'.set (some w.next) k = g (w.set r k) (w.set o k)) ∧ ∀ i, i ≠ w.next → w'.maps i = w.maps i) →
      ∀ w : MWorld K, w.Proper → a.Ok w.next → b.Ok w.next → ∃ r w', (do let s ← a.eval rt; let o ← b.eval rt; f s o : GoM (MWorld K) MRef) w = .ok r w' ∧ w'.Proper ∧
        RefOk w'.next r ∧ (∀ k, w'.set r k = g (a.holds (fun r => w.set r k)) (b.holds (fun r => w.set r k))) ∧
        w.next ≤ w'.next ∧ ∀ i, i < w.next → w'.maps i = w.maps i := by
    intro a b f g ha hb hf w hw hoa hob
    obtain ⟨s, w1, a1, a2, a3, a4, a5, a6⟩ := ha w hw hoa
    obtain ⟨o, w2, b1, b2, b3, b4, b5, b6⟩ := hb w1 a2 (hob.mono a5)
    obtain ⟨w3, c1, c2, c3, c4, c5⟩ := hf w2 s o b2 (a3.later b5) b3
    refine ⟨some w2.next, w3, ?_, c3, ?_, fun k => ?_, by omega, fun i hi => ?_⟩
    · simp only [GoM.bind_def, a1, b1, c1]
    · show w2.next < w3.next; omega
    · rw [c4, set_old b6 a3, a4, b4, SetExpr.holds_old a6 k hob]
    · rw [c5 i (by omega), b6 i (by omega), a6 i hi]
  induction e generalizing w with
  | var r => exact ⟨r, w, rfl, hw, he, fun _ => rfl, Nat.le_refl _, fun _ _ => rfl⟩
  | union a b iha ihb => exact two a b (bsUnion rt) _ iha ihb (fun w r o h1 h2 h3 => C76_union rt hrt w h1 r o h2 h3) w hw he.1 he.2
  | inter a b iha ihb => exact two a b (bsIntersection rt) _ iha ihb (fun w r o h1 h2 h3 => C76_intersection rt hrt w h1 r o h2 h3) w hw he.1 he.2
  | diff a b iha ihb => exact two a b (bsDifference rt) (fun x y => x && !y) iha ihb (fun w r o h1 h2 h3 => C76_difference rt hrt w h1 r o h2 h3) w hw he.1 he.2

/-- Two expressions evaluated one after another, then something asked about the results. -/
def evalBoth {α : Type} (rt : MapRt K) (a b : SetExpr) (ask : MRef → MRef → GoM (MWorld K) α) : GoM (MWorld K) α := do
  let s ← a.eval rt
  let o ← b.eval rt
  ask s o

theorem evalBoth_eq [LawfulGoEq K] {α : Type} (rt : MapRt K) (hrt : rt.Fair) (a b : SetExpr) (w : MWorld K) (hw : w.Proper) (ha : a.Ok w.next) (hb : b.Ok w.next)
    (ask : MRef → MRef → GoM (MWorld K) α) : ∃ s o w', evalBoth rt a b ask w = ask s o w' ∧ w'.Proper ∧
      (∀ k, w'.set s k = a.holds (fun r => w.set r k)) ∧ ∀ k, w'.set o k = b.holds (fun r => w.set r k) := by
  obtain ⟨s, w1, a1, a2, a3, a4, a5, a6⟩ := C176_eval rt hrt a w hw ha
  obtain ⟨o, w2, b1, b2, b3, b4, b5, b6⟩ := C176_eval rt hrt b w1 a2 (hb.mono a5)
  refine ⟨s, o, w2, by simp only [evalBoth, GoM.bind_def, a1, b1], b2, fun k => ?_, fun k => ?_⟩
  · rw [set_old b6 a3, a4]
  · rw [b4, SetExpr.holds_old a6 k hb]

/-- C176, identities: if two expressions hold for the same elements whatever their sets are, the results have the same answers of `Has`, the same `Len` and are subsets of each other. -/
theorem C176_identity [LawfulGoEq K] (rt : MapRt K) (hrt : rt.Fair) (a b : SetExpr) (hab : ∀ v, a.holds v = b.holds v)
    (w : MWorld K) (hw : w.Proper) (ha : a.Ok w.next) (hb : b.Ok w.next) :
    (∀ k, ∃ x w', evalBoth rt a b (fun s o => do return (← bsHas s k, ← bsHas o k)) w = .ok (x, x) w') ∧
    (∃ n w', evalBoth rt a b (fun s o => do return (← bsLen s, ← bsLen o)) w = .ok (n, n) w') ∧
    ∃ w', evalBoth rt a b (fun s o => do return (← bsIsSubsetOf rt s o, ← bsIsSubsetOf rt o s)) w = .ok (true, true) w' := by
  refine ⟨fun k => ?_, ?_, ?_⟩
  · obtain ⟨s, o, w', e, _, hs, ho⟩ := evalBoth_eq rt hrt a b w hw ha hb (fun s o => do return (← bsHas s k, ← bsHas o k))
    refine ⟨w'.set s k, w', e.trans ?_⟩
    have : w'.set o k = w'.set s k := by rw [hs, ho, hab]
    show Res.ok (w'.set s k, w'.set o k) w' = _
    rw [this]
  · obtain ⟨s, o, w', e, hp, hs, ho⟩ := evalBoth_eq rt hrt a b w hw ha hb (fun s o => do return (← bsLen s, ← bsLen o))
    have hs' : Lists (w'.set s) (w'.keysOf s) := by rw [hp.rel.set]; exact hp.rel.of s
    have ho' : Lists (w'.set o) (w'.keysOf o) := by rw [hp.rel.set]; exact hp.rel.of o
    have he : w'.set o = w'.set s := by funext k; rw [hs, ho, hab]
    rw [he] at ho'
    have hl : ((w'.keysOf o).length : Int) = ((w'.keysOf s).length : Int) := C75_size (w'.set s) _ _ ⟨_, ho', rfl⟩ ⟨_, hs', rfl⟩
    refine ⟨((w'.keysOf s).length : Int), w', e.trans ?_⟩
    show Res.ok (((w'.keysOf s).length : Int), ((w'.keysOf o).length : Int)) w' = _
    rw [hl]
  · obtain ⟨s, o, w', e, hp, hs, ho⟩ := evalBoth_eq rt hrt a b w hw ha hb (fun s o => do return (← bsIsSubsetOf rt s o, ← bsIsSubsetOf rt o s))
    obtain ⟨x, w1, c1, c2, c3⟩ := C77_subset rt hrt w' hp s o
    have hp1 : w1.Proper := by intro i; rw [c3]; exact hp i
    obtain ⟨y, w2, d1, d2, _⟩ := C77_subset rt hrt w1 hp1 o s
    have hset : ∀ r, w1.set r = w'.set r := fun r => set_all c3 r
    have hx : x = true := c2.2 (fun k hk => by rw [ho, ← hab, ← hs]; exact hk)
    have hy : y = true := d2.2 (fun k hk => by rw [hset] at hk ⊢; rw [hs, hab, ← ho]; exact hk)
    refine ⟨w2, e.trans ?_⟩
    simp only [GoM.bind_def, c1, d1, hx, hy]
    rfl

/-- C176, inclusions: if one expression holds wherever the other does, whatever the sets are, the result of the latter is a subset of that of the former; and if they never hold both, the
results are disjoint. -/
theorem C176_inclusion [LawfulGoEq K] (rt : MapRt K) (hrt : rt.Fair) (a b : SetExpr) (w : MWorld K) (hw : w.Proper) (ha : a.Ok w.next) (hb : b.Ok w.next) :
    ((∀ v, a.holds v = true → b.holds v = true) → ∃ w', evalBoth rt a b (bsIsSubsetOf rt) w = .ok true w') ∧
    ((∀ v, a.holds v = true → b.holds v = false) → ∃ w', evalBoth rt a b (bsIsDisjointOf rt) w = .ok true w') := by
  constructor
  · intro h
    obtain ⟨s, o, w', e, hp, hs, ho⟩ := evalBoth_eq rt hrt a b w hw ha hb (bsIsSubsetOf rt)
    obtain ⟨x, w1, c1, c2, _⟩ := C77_subset rt hrt w' hp s o
    have hx : x = true := c2.2 (fun k hk => by rw [ho]; rw [hs] at hk; exact h _ hk)
    exact ⟨w1, by rw [e, c1, hx]⟩
  · intro h
    obtain ⟨s, o, w', e, hp, hs, ho⟩ := evalBoth_eq rt hrt a b w hw ha hb (bsIsDisjointOf rt)
    obtain ⟨x, w1, c1, c2, _⟩ := C77_disjoint rt hrt w' hp s o
    have hx : x = true := c2.2 (fun ⟨k, h1, h2⟩ => by
      rw [hs] at h1
      rw [ho, h _ h1] at h2
      exact nomatch h2)
    exact ⟨w1, by rw [e, c1, hx]⟩

/-- C176, no other identities: if two expressions of set variables (none of them nil) differ for some `v`, then there are sets for which their results differ. -/
theorem C176_only [LawfulGoEq K] (rt : MapRt K) (hrt : rt.Fair) (a b : SetExpr) (n : Nat) (ha : a.Ok n) (hb : b.Ok n) (v : MRef → Bool) (hv : v none = false)
    (hab : a.holds v ≠ b.holds v) (k : K) :
    ∃ w : MWorld K, w.Proper ∧ w.next = n ∧ ∃ x y w', evalBoth rt a b (fun s o => do return (← bsHas s k, ← bsHas o k)) w = .ok (x, y) w' ∧ x ≠ y := by
  let w : MWorld K := { maps := fun i => if v (some i) then [k] else [], next := n, loops := 0 }
  have hset : ∀ r, w.set r k = v r := by
    intro r
    cases r with
    | none => exact hv.symm
    | some i =>
      show (if v (some i) = true then [k] else []).any (fun e => GoEq.eq k e) = v (some i)
      cases v (some i) with
      | true => simp [LawfulGoEq.refl]
      | false => rfl
  have hw : w.Proper := by
    intro i
    show (if v (some i) = true then [k] else []).Pairwise _
    split <;> simp
  obtain ⟨s, o, w', e, _, hs, ho⟩ := evalBoth_eq rt hrt a b w hw ha hb (fun s o => do return (← bsHas s k, ← bsHas o k))
  refine ⟨w, hw, rfl, w'.set s k, w'.set o k, w', e, ?_⟩
  rw [hs, ho]
  have e1 : (fun r => w.set r k) = v := funext hset
  rw [e1]
  exact hab

/-! ## Examples -/

/-- Three sets. -/
def exA : SetExpr := .var (some 0)
def exB : SetExpr := .var (some 1)
def exC : SetExpr := .var (some 2)

/-- De Morgan's law, distributivity, absorption, and that `Difference` gives what `Intersection` leaves. -/
example : (∀ v, (SetExpr.diff exA (.union exB exC)).holds v = (SetExpr.inter (.diff exA exB) (.diff exA exC)).holds v) ∧
    (∀ v, (SetExpr.inter exA (.union exB exC)).holds v = (SetExpr.union (.inter exA exB) (.inter exA exC)).holds v) ∧
    (∀ v, (SetExpr.union exA (.inter exA exB)).holds v = exA.holds v) ∧
    (∀ v, (SetExpr.union (.diff exA exB) (.inter exA exB)).holds v = exA.holds v) := by
  refine ⟨fun v => ?_, fun v => ?_, fun v => ?_, fun v => ?_⟩ <;> simp only [SetExpr.holds, exA, exB, exC] <;>
    cases v (some 0) <;> cases v (some 1) <;> cases v (some 2) <;> rfl

example : (match (do
      let _ ← bsSetOf zigzag [1, 2, 3, 4]
      let _ ← bsSetOf zigzag [2, 5]
      let _ ← bsSetOf zigzag [3, 5, 6]
      evalBoth zigzag (.diff exA (.union exB exC)) (.inter (.diff exA exB) (.diff exA exC)) (fun s o => do return (← bsKeys zigzag s, ← bsKeys zigzag o)) : GoM (MWorld Nat) (List Nat × List Nat)) MWorld.empty with
    | .ok r _ => some r
    | _ => none) = some ([1, 4], [1, 4]) := by decide +kernel

/-- With NaN for an element the identities do not hold: `s.Union(s)` has two elements if `s` is the set of one NaN. -/
theorem C176_nan : (match (do
      let s ← bsSetOf zigzag [NanInt.nan]
      let u ← (SetExpr.union (.var s) (.var s)).eval zigzag
      return (← bsLen s, ← bsLen u) : GoM (MWorld NanInt) (Int × Int)) MWorld.empty with
    | .ok r _ => some r
    | _ => none) = some (1, 2) := by decide +kernel

end Stl4go
