import Verif.Proofs.BuiltinSetHash
import Verif.Proofs.Simple
import Verif.Spec.BuiltinSetLive
/-!
# C135: keys that cannot be hashed

`GoHash.ok k` says whether `k` can be hashed; it is arbitrary.
-/
namespace Stl4go
variable {K : Type} [GoHash K]

/-- C135: all results of a history on any number of sets are those of mathematical sets, where an operation that is given a key that cannot be hashed
panics: one with a single key without effect, also for a nil set; `SetOf`, `InsertN` and `RemoveN` after the keys before it have been treated. -/
theorem C135_history [GoEq K] [LawfulGoEq K] (rt : MapRt K) (hrt : rt.Fair) (ops : List (BOp K)) (hl : BState.empty.LegalHash ops) :
    BState.empty.MatchesHash ops (MWorld.empty.runHashed rt ops) :=
  (MWorld.runHashed_ok rt hrt ops _ _ BRel.empty (fun _ _ h => by cases h) hl).1

/-- C135: no set ever has a member that cannot be hashed. -/
theorem C135_members [GoEq K] [LawfulGoEq K] (rt : MapRt K) (hrt : rt.Fair) (ops : List (BOp K)) (hl : BState.empty.LegalHash ops) (r : MRef) (k : K)
    (hk : k ∈ (MWorld.empty.afterHashed rt ops).keysOf r) : GoHash.ok k = true :=
  (MWorld.runHashed_ok rt hrt ops _ _ BRel.empty (fun _ _ h => by cases h) hl).2.keysOf r k hk

/-- C135: `==` is asked only about keys that can be hashed: what it says about others, or whether it panics for them, makes no difference. So
`C135_history` needs its laws for keys that can be hashed only. -/
theorem C135_unasked (e1 e2 : GoEq K) (he : ∀ x y : K, GoHash.ok x = true → GoHash.ok y = true → e1.eq x y = e2.eq x y) (rt : MapRt K) (hrt : rt.Fair)
    (ops : List (BOp K)) : @MWorld.runHashed K e1 _ rt MWorld.empty ops = @MWorld.runHashed K e2 _ rt MWorld.empty ops := by
  have refl : ∀ x y : K, GoHash.ok x = true → GoHash.ok y = true → e2.eq x y = e2.eq x y := fun _ _ _ _ => rfl
  have good : ∀ (op : BOp K) (w : MWorld K), w.Hashable → AllHash op.given →
      @BOp.hashed K e1 _ rt op w = @BOp.hashed K e2 _ rt op w ∧ HashLeaves (fun _ => True) (@BOp.hashed K e1 _ rt op w) := fun op w hw hk =>
    ⟨(BOp.sameHash he rt hrt op hk w hw).1.trans (BOp.sameHash refl rt hrt op hk w hw).1.symm, (BOp.sameHash he rt hrt op hk w hw).2⟩
  have all : ∀ (op : BOp K) (w : MWorld K), w.Hashable →
      @BOp.hashed K e1 _ rt op w = @BOp.hashed K e2 _ rt op w ∧ HashLeaves (fun _ => True) (@BOp.hashed K e1 _ rt op w) := by
    intro op w hw
    by_cases hb : op.given.all GoHash.ok = true
    · exact good op w hw ((allHash_iff _).1 hb)
    · have hb' : op.given.all GoHash.ok = false := by simpa using hb
      by_cases hm : op.many = true
      · have := good (op.withKeys (op.given.takeWhile GoHash.ok)) w hw (by rw [op.given_withKeys hm]; exact allHash_takeWhile _)
        rw [@BOp.hashed_many K _ e1 rt op hm hb' w, @BOp.hashed_many K _ e2 rt op hm hb' w, this.1]
        refine ⟨rfl, ?_⟩
        have h2 := this.2
        rw [this.1] at h2
        revert h2
        cases @BOp.hashed K e2 _ rt (op.withKeys (op.given.takeWhile GoHash.ok)) w with
        | ok a w' => exact fun h => h.2
        | panic w' => exact fun h => h
        | diverge => exact fun h => h
      · have hm' : op.many = false := by simpa using hm
        rw [@BOp.hashed_one K _ e1 rt op hm' hb' w, @BOp.hashed_one K _ e2 rt op hm' hb' w]
        exact ⟨rfl, hw⟩
  have run : ∀ (ops : List (BOp K)) (w : MWorld K), w.Hashable → @MWorld.runHashed K e1 _ rt w ops = @MWorld.runHashed K e2 _ rt w ops := by
    intro ops
    induction ops with
    | nil => intro w _; rfl
    | cons op ops ih =>
      intro w hw
      obtain ⟨e, hl⟩ := all op w hw
      have ec : @BOp.callHashed K e1 _ rt op w = @BOp.callHashed K e2 _ rt op w := by simp only [BOp.callHashed, e]
      have hw' : (@BOp.callHashed K e1 _ rt op w).2.Hashable := by
        unfold BOp.callHashed
        cases hx : @BOp.hashed K e1 _ rt op w with
        | ok a w' => rw [hx] at hl; exact hl.2
        | panic w' => rw [hx] at hl; exact hl
        | diverge => exact hw
      simp only [MWorld.runHashed]
      rw [ih _ hw', ec]
  exact run ops _ (fun _ _ h => by cases h)

/-- C135: if all keys can be hashed the operations are those of the other model. -/
theorem C135_total [GoEq K] (h : ∀ k : K, GoHash.ok k = true) (rt : MapRt K) (hrt : rt.Fair) (op : BOp K) (w : MWorld K) :
    op.hashed rt w = op.exec rt w :=
  (BOp.sameHash (e1 := inferInstance) (e2 := inferInstance) (fun _ _ _ _ => rfl) rt hrt op (fun k _ => h k) w (fun _ k _ => h k)).1

/-! ## Cases -/

section Cases

/-- Values of type `any`: numbers, and slices, which cannot be hashed. -/
inductive AnyKey
  | num (n : Nat)
  | slice (id : Nat)
deriving DecidableEq

instance : GoHash AnyKey where
  ok
    | .num _ => true
    | .slice _ => false

instance : GoEq AnyKey := ⟨fun a b => decide (a = b)⟩
instance : LawfulGoEq AnyKey where
  refl a := by simp [GoEq.eq]
  symm a b h := by simp [GoEq.eq] at h ⊢; exact h.symm
  trans a b c h1 h2 := by simp [GoEq.eq] at h1 h2 ⊢; exact h1.trans h2

/-- The runtime leaves the keys in order. -/
def keyOrder : MapRt AnyKey := { order := fun _ l => l, replace := false }
example : keyOrder.Fair := fun _ l => List.Perm.refl l

/-- `InsertN` of three keys, the second of which is bad; lookups of it in a set and in a nil set; what is in the set then. -/
def badKeys : List (BOp AnyKey) :=
  [.setOf [.num 1], .insertN (some 0) [.num 2, .slice 0, .num 3], .has (some 0) (.slice 0), .has none (.slice 0), .remove none (.slice 1), .keys (some 0),
    .removeN (some 0) [.num 1, .slice 0, .num 2], .keys (some 0), .insert (some 0) (.num 9), .setOf [.num 4, .slice 0], .len (some 1)]

example : MWorld.empty.runHashed keyOrder badKeys =
    [.ref (some 0), .panicked, .panicked, .panicked, .panicked, .keys [.num 1, .num 2], .panicked, .keys [.num 2], .flag true, .panicked, .num 1] := by
  decide +kernel

instance legalHashDec : (ops : List (BOp AnyKey)) → (st : BState AnyKey) → Decidable (st.LegalHash ops)
  | [], _ => .isTrue trivial
  | op :: ops, st =>
    have := legalHashDec ops (st.stepHash op)
    inferInstanceAs (Decidable (op.Valid st.next ∧ (st.stepHash op).LegalHash ops))

example : BState.empty.LegalHash badKeys := by decide +kernel

end Cases

end Stl4go
