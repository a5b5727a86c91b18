import Verif.Proofs.SkipListWeak
import Verif.Props.SkipListCursor
/-!
# Property C121: what an iterator of `/repo/skiplist.go` shows while the map changes

`ops` is any history that ends with some iterator `c` somewhere, `more` any continuation that does not assign a new iterator to `c`: it may
insert and remove anything, clear the map, write values, and use other iterators.
-/
namespace Stl4go
variable {K V : Type} {impl : SLImpl K}

/-- The key iterator `c` shows in the model after the history is the first one ahead of it. -/
theorem key_ahead (hl : impl.Lawful) (ops : List (SCOp K V)) (c : Nat) (k : K) :
    (((SCWorld.init.run impl ops).2).step impl (.key c)).1 = .key k ↔
      (SCSpec.ahead (SCSpec.init.run impl.less ops).2.removed ((SCSpec.init.run impl.less ops).2.curs c)).head? = some k := by
  obtain ⟨ids, D, I⟩ := SCInv.after hl ops
  have ok := (SOk.run hl.weak c ops SOk.init).1
  rw [(I.step hl (.key c)).1, ← (ok.curs c).key hl.weak ok.sorted]
  simp only [SCSpec.step]
  cases (((SCSpec.init.run impl.less ops).2.curs c).place).bind ((SCSpec.init.run impl.less ops).2.entry impl.less) with
  | none => simp
  | some e => simp

/-- C121: the keys an iterator shows are strictly ascending. As long as it is not moved, it shows the same key, even if that entry was removed;
once it was moved, and has a key at all, the key is greater than each earlier one. -/
theorem C121_ascending (hl : impl.Lawful) (ops more : List (SCOp K V)) (c : Nat) (hc : ∀ op ∈ more, op.setsCur c = false) (k : K)
    (hk : (((SCWorld.init.run impl ops).2).step impl (.key c)).1 = .key k) :
    (more.any (SCOp.moves c) = false → (((SCWorld.init.run impl (ops ++ more)).2).step impl (.key c)).1 = .key k) ∧
    (more.any (SCOp.moves c) = true → ∀ k', (((SCWorld.init.run impl (ops ++ more)).2).step impl (.key c)).1 = .key k' → impl.less k k' = true) := by
  have ok := (SOk.run hl.weak c ops (SOk.init : SOk impl.less (SCSpec.init : SCSpec K V))).1
  obtain ⟨_, h2⟩ := SOk.run hl.weak c more ok
  obtain ⟨_, h3, h4⟩ := h2 hc
  rw [key_ahead hl] at hk
  refine ⟨fun hm => ?_, fun hm k' hk' => ?_⟩
  · rw [key_ahead hl, SCSpec.run_append, h3 hm, hk]
  · rw [key_ahead hl, SCSpec.run_append] at hk'
    exact h4 hm k hk k' hk'

theorem has_find (hl : impl.Lawful) (ops : List (SCOp K V)) (q : K)
    (h : (((SCWorld.init.run impl ops).2).step impl (.map 0 (.has q))).1 = .of (.flag true)) :
    (SMap.find impl.less q (SCSpec.init.run impl.less ops).2.map).isSome = true := by
  obtain ⟨ids, D, I⟩ := SCInv.after hl ops
  rw [(I.step hl (.map 0 (.has q))).1] at h
  simpa [SCSpec.step, SMap.step] using h

/-- If `q` is ahead and stays in the map. -/
theorem unskipped (hl : impl.Lawful) (ops more : List (SCOp K V)) (c : Nat) (hc : ∀ op ∈ more, op.setsCur c = false) (q : K)
    (hb : ((SCSpec.init.run impl.less ops).2.curs c).Before impl.less q)
    (hq : ∀ pre, pre <+: more → (((SCWorld.init.run impl (ops ++ pre)).2).step impl (.map 0 (.has q))).1 = .of (.flag true)) :
    (∃ pre k', pre <+: more ∧ (((SCWorld.init.run impl (ops ++ pre)).2).step impl (.key c)).1 = .key k' ∧ sameKey impl.less q k' = true) ∨
    ∃ k', (((SCWorld.init.run impl (ops ++ more)).2).step impl (.key c)).1 = .key k' ∧ impl.less k' q = true := by
  have ok := (SOk.run hl.weak c ops (SOk.init : SOk impl.less (SCSpec.init : SCSpec K V))).1
  rcases SOk.before_run hl.weak c more hc ok (fun pre hp => by rw [← SCSpec.run_append]; exact has_find hl _ _ (hq pre hp)) hb with
    ⟨pre, k, a1, a2, a3⟩ | hb'
  · exact .inl ⟨pre, k, a1, by rw [key_ahead hl, SCSpec.run_append]; exact a2, a3⟩
  · have ok' := (SOk.run hl.weak c more ok).1
    obtain ⟨k, b1, b2⟩ := (ok'.curs c).before_head hl.weak hb'
    have hk : (((SCWorld.init.run impl (ops ++ more)).2).step impl (.key c)).1 = .key k := by rw [key_ahead hl, SCSpec.run_append]; exact b1
    cases hx : impl.less k q with
    | true => exact .inr ⟨k, hk, hx⟩
    | false => exact .inl ⟨more, k, List.prefix_refl _, hk, sameKey_iff.2 ⟨b2, hx⟩⟩

/-- C121: an entry that stays in the map is not skipped. If an iterator is made that starts at `q` or before, and `q` is in the map then and
from then on, then at any later moment the iterator has been on `q`, or it is still before `q`; it is not at the end. -/
theorem C121_unskipped (hl : impl.Lawful) (ops more : List (SCOp K V)) (c : Nat) (mk : SCOp K V) (q : K)
    (hmk : mk.startsBefore impl.less c q = true) (hc : ∀ op ∈ more, op.setsCur c = false)
    (hq : ∀ pre, pre <+: mk :: more → (((SCWorld.init.run impl (ops ++ pre)).2).step impl (.map 0 (.has q))).1 = .of (.flag true)) :
    (∃ pre k', pre <+: more ∧ (((SCWorld.init.run impl (ops ++ mk :: pre)).2).step impl (.key c)).1 = .key k' ∧ sameKey impl.less q k' = true) ∨
    ∃ k', (((SCWorld.init.run impl (ops ++ mk :: more)).2).step impl (.key c)).1 = .key k' ∧ impl.less k' q = true := by
  have ok := (SOk.run hl.weak c ops (SOk.init : SOk impl.less (SCSpec.init : SCSpec K V))).1
  have hb := ok.before_new hl.weak hmk (has_find hl _ _ (by simpa using hq [] List.nil_prefix))
  have := unskipped hl (ops ++ [mk]) more c hc q (by rw [SCSpec.run_append]; exact hb)
    (fun pre hp => by
      have := hq (mk :: pre) (by rwa [List.cons_prefix_cons, and_iff_right rfl])
      rwa [List.append_assoc, List.singleton_append])
  simpa only [List.append_assoc, List.singleton_append] using this

/-- C121: an iterator can be moved on at most once for each entry that was in the map when it was made, and once more for each later `Insert`:
no loop over a map is endless unless it inserts endlessly. -/
theorem C121_bounded (hl : impl.Lawful) (ops more : List (SCOp K V)) (c : Nat) (mk : SCOp K V) (hmk : mk.setsCur c = true)
    (hc : ∀ op ∈ more, op.setsCur c = false) :
    ∃ n : Nat, (((SCWorld.init.run impl ops).2).step impl (.map 0 .len)).1 = .of (.num n) ∧
      moveCount c more (((SCWorld.init.run impl (ops ++ [mk])).2).run impl more).1 ≤ n + more.countP SCOp.isInsert := by
  obtain ⟨ids, D, I⟩ := SCInv.after hl ops
  obtain ⟨ids', D', J⟩ := SCInv.after hl (ops ++ [mk])
  have ok := (SOk.run hl.weak c ops (SOk.init : SOk impl.less (SCSpec.init : SCSpec K V))).1
  have ok' := (SOk.run hl.weak c (ops ++ [mk]) (SOk.init : SOk impl.less (SCSpec.init : SCSpec K V))).1
  refine ⟨(SCSpec.init.run impl.less ops).2.map.length, by rw [(I.step hl (.map 0 .len)).1]; rfl, ?_⟩
  rw [(SCInv.run hl more J).1]
  have h1 := SOk.room_run hl.weak c more hc ok'
  have h2 : SCSpec.room impl.less (SCSpec.init.run impl.less (ops ++ [mk])).2.map ((SCSpec.init.run impl.less (ops ++ [mk])).2.curs c) ≤
      (SCSpec.init.run impl.less ops).2.map.length := by
    rw [SCSpec.run_append]
    cases mk <;> simp [SCOp.setsCur] at hmk <;> subst hmk <;>
      exact SCSpec.room_le (by simp [SCSpec.run, SCSpec.step, SCSpec.put])
  omega

/-! ## C122: entries after the current key -/

/-- C122, full statement (false, see `C122_counterexample`): if an iterator shows `k`, then from that moment on no entry with a greater key is
skipped that is in the map and stays there. -/
def C122_statement : Prop :=
  ∀ (ops more : List (SCOp Int Int)) (c : Nat) (k q : Int), (∀ op ∈ more, op.setsCur c = false) →
    (((SCWorld.init.run exImpl ops).2).step exImpl (.key c)).1 = .key k → k < q →
    (∀ pre, pre <+: more → (((SCWorld.init.run exImpl (ops ++ pre)).2).step exImpl (.map 0 (.has q))).1 = .of (.flag true)) →
    (∃ pre, pre <+: more ∧ (((SCWorld.init.run exImpl (ops ++ pre)).2).step exImpl (.key c)).1 = .key q) ∨
    ∃ k', (((SCWorld.init.run exImpl (ops ++ more)).2).step exImpl (.key c)).1 = .key k' ∧ k' < q

/-- Key 1 is removed while the iterator is on it, then 3 is inserted. -/
def exSkip : List (SCOp Int Int) :=
  [.map 0 (.insert 1 10), .map 0 (.insert 5 50), .iterate 0, .map 0 (.remove 1), .map 0 (.insert 3 30)]

/-- C122 is false: the iterator on the removed key 1 goes on to 5, past the entry 3 that was inserted before the step. -/
theorem C122_counterexample : ¬ C122_statement := by
  intro h
  have h1 := h exSkip [.next 0] 0 1 3 (by simp [SCOp.setsCur]) (by decide +kernel) (by decide) (by
    intro pre hp
    rcases List.prefix_cons_iff.1 hp with rfl | ⟨t, rfl, ht⟩
    · decide +kernel
    · rw [List.prefix_nil] at ht; subst ht; decide +kernel)
  have e : (((SCWorld.init.run exImpl (exSkip ++ [.next 0])).2).step exImpl (.key 0)).1 = .key 5 := by decide +kernel
  rcases h1 with ⟨pre, hp, hk⟩ | ⟨k', hk, hlt⟩
  · rcases List.prefix_cons_iff.1 hp with rfl | ⟨t, rfl, ht⟩
    · have e0 : (((SCWorld.init.run exImpl (exSkip ++ [])).2).step exImpl (.key 0)).1 = .key 1 := by decide +kernel
      rw [e0] at hk; cases hk
    · rw [List.prefix_nil] at ht; subst ht
      rw [e] at hk; cases hk
  · rw [e] at hk; cases hk; exact absurd hlt (by decide)

/-- C122, what holds: no such entry is skipped if the iterator has no removed entry ahead of it (is on an entry of the map). Missing: the case
that the entry the iterator is on was removed; then entries inserted after the removal, before the key that followed, are skipped. -/
theorem C122_present_partial (hl : impl.Lawful) (ops more : List (SCOp K V)) (c : Nat) (hc : ∀ op ∈ more, op.setsCur c = false) (k q : K)
    (hon : ((SCSpec.init.run impl.less ops).2.curs c).gone = [])
    (hk : (((SCWorld.init.run impl ops).2).step impl (.key c)).1 = .key k) (hkq : impl.less k q = true)
    (hq : ∀ pre, pre <+: more → (((SCWorld.init.run impl (ops ++ pre)).2).step impl (.map 0 (.has q))).1 = .of (.flag true)) :
    (∃ pre k', pre <+: more ∧ (((SCWorld.init.run impl (ops ++ pre)).2).step impl (.key c)).1 = .key k' ∧ sameKey impl.less q k' = true) ∨
    ∃ k', (((SCWorld.init.run impl (ops ++ more)).2).step impl (.key c)).1 = .key k' ∧ impl.less k' q = true := by
  refine unskipped hl ops more c hc q ?_ hq
  rw [key_ahead hl] at hk
  simp only [SCSpec.ahead, hon] at hk
  cases hst : ((SCSpec.init.run impl.less ops).2.curs c).start with
  | none => rw [hst] at hk; simp at hk
  | some st =>
    rw [hst] at hk; simp at hk; subst hk
    exact ⟨_, hst, hl.weak.asymm hkq⟩

/-- C122, the rest: an iterator whose entry was removed goes on to the key that followed it at the moment of the removal, whatever is done with
the map in between. -/
theorem C122_removed (hl : impl.Lawful) (ops more : List (SCOp K V)) (c : Nat) (k : K) (r : Nat)
    (hc : ∀ op ∈ more, op.setsCur c = false ∧ op.moves c = false)
    (hon : ((SCSpec.init.run impl.less ops).2.curs c).gone = [])
    (hk : (((SCWorld.init.run impl ops).2).step impl (.key c)).1 = .key k)
    (k' : K) (hk' : SMap.succ impl.less (SCSpec.init.run impl.less ops).2.map k = some k') :
    (((SCWorld.init.run impl (ops ++ .map r (.remove k) :: (more ++ [.next c]))).2).step impl (.key c)).1 = .key k' := by
  have ok := (SOk.run hl.weak c ops (SOk.init : SOk impl.less (SCSpec.init : SCSpec K V))).1
  rw [key_ahead hl] at hk ⊢
  rw [SCSpec.run_append, show (.map r (.remove k) :: (more ++ [.next c]) : List (SCOp K V)) = ([.map r (.remove k)] ++ more) ++ [.next c] by simp,
    SCSpec.run_append, SCSpec.run_append]
  generalize hS : (SCSpec.init.run impl.less ops).2 = S at *
  cases hst : (S.curs c).start with
  | none => simp [SCSpec.ahead, hon, hst] at hk
  | some st =>
    simp [SCSpec.ahead, hon, hst] at hk; subst hk
    obtain ⟨v, hv⟩ := (ok.curs c).here st hst
    obtain ⟨G, T, sp⟩ := SSplit.at hl.weak ok.sorted hv
    have ok1 := (SOk.run hl.weak c [.map r (.remove st)] ok).1
    have e1 : SCSpec.ahead (S.run impl.less [.map r (.remove st)]).2.removed ((S.run impl.less [.map r (.remove st)]).2.curs c) = [st, k'] := by
      simp [SCSpec.run, SCSpec.step, SCSpec.ahead, SCur.after, hon, hst, sameKey, hl.weak.irrefl, hk', SMap.removes]
      have := SMap.same_split sp
      simp [sameKey] at this
      rw [this]; simp
    obtain ⟨ext, e2⟩ := SOk.run_prefix hl.weak c more hc ok1
    rw [e1] at e2
    have ok2 := (SOk.run hl.weak c more ok1).1
    have := ok2.next_second hl.weak c e2
    simp only [SCSpec.run] at this ⊢
    rw [this]; rfl

/-! ## Concrete cases -/

/-- The hypotheses of `C121_unskipped` and `C121_bounded` hold here: 9 is in the map and iterator 0 gets to it; it makes 4 steps. -/
example : (SCOp.startsBefore exImpl.less 0 9 (.iterate 0 : SCOp Int Int), ((exSCursors.drop 4).take 25).all (fun op => !(op.setsCur 0)),
    moveCount 0 (exSCursors.drop 4) ((((SCWorld.init.run exImpl (exSCursors.take 4)).2).run exImpl (exSCursors.drop 4)).1),
    (exSCursors.drop 4).countP SCOp.isInsert) = (true, true, 4, 2) := by decide +kernel

/-- The hypotheses of `C122_removed`: iterator 0 is on 1 in the map, and 5 follows. -/
example : ((((SCSpec.init.run exImpl.less (exSkip.take 3)).2.curs 0).gone, SMap.succ exImpl.less (SCSpec.init.run exImpl.less (exSkip.take 3)).2.map 1,
    (((SCWorld.init.run exImpl (exSkip.take 3)).2).step exImpl (.key 0)).1) : List Nat × Option Int × SCObs Int Int) = ([], some 5, .key 1) := by
  decide +kernel

end Stl4go
