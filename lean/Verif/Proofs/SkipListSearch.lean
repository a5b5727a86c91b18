import Verif.Proofs.SkipListLinks
import Verif.Proofs.Order
/-! # Skip list: the search loops -/
namespace Stl4go
variable {K V : Type}

/-! ## Memory access -/

theorem idx_of_get {T : Type} {a : List T} {i : Nat} {v : T} (h : a[i]? = some v) : idx a i = .ret v := by
  simp [idx, h]

theorem SL.nextAt_of_get {sl : SL K V} {r : Ref} {i : Nat} {v : Option Nat} (h : sl.get r i = some v) :
    sl.nextAt r i = .ret v := by
  cases r with
  | head => exact idx_of_get h
  | node p =>
    simp only [SL.get, Option.bind_eq_some_iff] at h
    obtain ⟨n, hn, hi⟩ := h
    simp only [SL.nextAt, SL.deref, idx_of_get hn, Outcome.ret_bind, idx_of_get hi]

theorem SL.kv_some {sl : SL K V} {p : Nat} {e : K × V} (h : sl.kv p = some e) :
    ∃ n, sl.nodes[p]? = some n ∧ n.key = e.1 ∧ n.value = e.2 := by
  simp only [SL.kv, Option.map_eq_some_iff] at h
  obtain ⟨n, hn, rfl⟩ := h
  exact ⟨n, hn, rfl, rfl⟩

theorem SL.kv_of_lvl {sl : SL K V} {p : Nat} (h : 0 < sl.lvl p) : ∃ e, sl.kv p = some e := by
  unfold SL.lvl at h
  split at h
  · next n hn => exact ⟨(n.key, n.value), by simp [SL.kv, hn]⟩
  · omega

theorem SL.lvl_lt {sl : SL K V} {p : Nat} (h : 0 < sl.lvl p) : p < sl.nodes.length := by
  unfold SL.lvl at h
  split at h
  · next n hn => exact (List.getElem?_eq_some_iff.1 hn).1
  · omega

theorem SL.get_node {sl : SL K V} {p i : Nat} {n : SLNode K V} (hn : sl.nodes[p]? = some n) :
    sl.get (.node p) i = n.next[i]? := by simp [SL.get, hn]

/-! ## The generic loop -/

/-- What the loop body decides from the key of the current node. -/
inductive Dec where
  | hit
  | stop
  | go
deriving DecidableEq

/-- Common shape of the inner search loops. -/
def walk (dec : K → Dec) (sl : SL K V) (i : Nat) : (fuel : Nat) → Ref → Option Nat → Outcome (Nat ⊕ Ref)
  | 0, _, _ => .diverge
  | _ + 1, prev, none => .ret (.inr prev)
  | fuel + 1, prev, some cur => do
    let n ← sl.deref cur
    match dec n.key with
    | .hit => return .inl cur
    | .stop => return .inr prev
    | .go =>
      let nx ← idx n.next i
      walk dec sl i fuel (.node cur) nx

/-- Body of `doFindNode` and of the ordered `findInsertPoint`. -/
def decO [GoOrd K] (key k : K) : Dec :=
  if GoEq.eq k key then .hit else if GoOrd.lt key k then .stop else .go
/-- Body of the ordered `findPrevNodes`. -/
def decPO [GoOrd K] (key k : K) : Dec := if GoOrd.ge k key then .stop else .go
/-- Body of the func `lowerBound` and `findInsertPoint`. -/
def decF (c : K → K → Int) (key k : K) : Dec := if c k key = 0 then .hit else if c k key > 0 then .stop else .go
/-- Body of the func `findPrevNodes`. -/
def decPF (c : K → K → Int) (key k : K) : Dec := if c k key ≥ 0 then .stop else .go

theorem doFindNodeInner_eq [GoOrd K] (sl : SL K V) (key : K) (i fuel : Nat) (prev : Ref) (cur : Option Nat) :
    sl.doFindNodeInner key i fuel prev cur = walk (decO key) sl i fuel prev cur := by
  induction fuel generalizing prev cur with
  | zero => rfl
  | succ fuel ih =>
    cases cur with
    | none => rfl
    | some c =>
      simp only [SL.doFindNodeInner, walk, ih, decO]
      congr 1; funext n
      split
      · rfl
      · split <;> rfl

theorem findInsertInnerO_eq [GoOrd K] (sl : SL K V) (key : K) (i fuel : Nat) (prev : Ref) (cur : Option Nat) :
    sl.findInsertInnerO key i fuel prev cur = walk (decO key) sl i fuel prev cur := by
  induction fuel generalizing prev cur with
  | zero => rfl
  | succ fuel ih =>
    cases cur with
    | none => rfl
    | some c =>
      simp only [SL.findInsertInnerO, walk, ih, decO]
      congr 1; funext n
      split
      · rfl
      · split <;> rfl

theorem lowerBoundInnerF_eq (f : K → K → Int) (sl : SL K V) (key : K) (i fuel : Nat) (prev : Ref) (cur : Option Nat) :
    SL.lowerBoundInnerF f sl key i fuel prev cur = walk (decF f key) sl i fuel prev cur := by
  induction fuel generalizing prev cur with
  | zero => rfl
  | succ fuel ih =>
    cases cur with
    | none => rfl
    | some c =>
      simp only [SL.lowerBoundInnerF, walk, ih, decF]
      congr 1; funext n
      split
      · rfl
      · split <;> rfl

theorem findInsertInnerF_eq (f : K → K → Int) (sl : SL K V) (key : K) (i fuel : Nat) (prev : Ref) (cur : Option Nat) :
    SL.findInsertInnerF f sl key i fuel prev cur = walk (decF f key) sl i fuel prev cur := by
  induction fuel generalizing prev cur with
  | zero => rfl
  | succ fuel ih =>
    cases cur with
    | none => rfl
    | some c =>
      simp only [SL.findInsertInnerF, walk, ih, decF]
      congr 1; funext n
      split
      · rfl
      · split <;> rfl

theorem findPrevInnerO_eq [GoOrd K] (sl : SL K V) (key : K) (i fuel : Nat) (prev : Ref) (cur : Option Nat) :
    (do let r ← sl.findPrevInnerO key i fuel prev cur; return .inr r) = walk (decPO key) sl i fuel prev cur := by
  induction fuel generalizing prev cur with
  | zero => rfl
  | succ fuel ih =>
    cases cur with
    | none => rfl
    | some c =>
      simp only [SL.findPrevInnerO, walk, ← ih, decPO, bind_assoc]
      congr 1; funext n
      split
      · rfl
      · simp only [bind_assoc]

theorem findPrevInnerF_eq (f : K → K → Int) (sl : SL K V) (key : K) (i fuel : Nat) (prev : Ref) (cur : Option Nat) :
    (do let r ← SL.findPrevInnerF f sl key i fuel prev cur; return .inr r) = walk (decPF f key) sl i fuel prev cur := by
  induction fuel generalizing prev cur with
  | zero => rfl
  | succ fuel ih =>
    cases cur with
    | none => rfl
    | some c =>
      simp only [SL.findPrevInnerF, walk, ← ih, decPF, bind_assoc]
      congr 1; funext n
      split
      · rfl
      · simp only [bind_assoc]

/-- The inner result of `findPrevNodes` from that of the generic loop. -/
theorem of_inr {x : Outcome Ref} {r : Ref} (h : (do let r ← x; return (.inr r : Nat ⊕ Ref)) = .ret (.inr r)) :
    x = .ret r := by
  cases x with
  | ret a => simp at h; rw [h]
  | panic => simp at h
  | diverge => simp at h

/-- The nodes `G` are passed, then at most one node `H` is hit, and `S` stops the search. -/
structure Split (dec : K → Dec) (sl : SL K V) (ids G H S : List Nat) : Prop where
  ids_eq : ids = G ++ (H ++ S)
  go : ∀ p ∈ G, ∃ e, sl.kv p = some e ∧ dec e.1 = .go
  hit : ∀ p ∈ H, ∃ e, sl.kv p = some e ∧ dec e.1 = .hit
  stop : ∀ p ∈ S, ∃ e, sl.kv p = some e ∧ dec e.1 = .stop
  one : H.length ≤ 1

theorem walk_spec {dec : K → Dec} {sl : SL K V} {ids pre G2 H S : List Nat} {i fuel : Nat}
    (L : Linked sl.get sl.lvl ids) (sp : Split dec sl ids (pre ++ G2) H S) (hf : G2.length < fuel) :
    walk dec sl i fuel (lastAt sl.lvl i pre) (firstAt sl.lvl i (G2 ++ (H ++ S))) =
      match firstAt sl.lvl i H with
      | some h => .ret (.inl h)
      | none => .ret (.inr (lastAt sl.lvl i (pre ++ G2))) := by
  induction fuel generalizing pre G2 with
  | zero => omega
  | succ fuel ih =>
    rw [firstAt_append]
    cases hc : firstAt sl.lvl i G2 with
    | some c =>
      obtain ⟨P, Q, rfl, hic, hP⟩ := firstAt_some hc
      obtain ⟨e, hkv, hdec⟩ := sp.go c (by simp)
      obtain ⟨n, hn, hk, _⟩ := SL.kv_some hkv
      have hget := L.node_get (pre ++ P) c (Q ++ (H ++ S)) (by rw [sp.ids_eq]; simp) i hic
      rw [SL.get_node hn] at hget
      simp only [Option.some_or, walk, SL.deref, idx_of_get hn, Outcome.ret_bind, hk, hdec, idx_of_get hget]
      have hl : (Ref.node c) = lastAt sl.lvl i (pre ++ P ++ [c]) := (lastAt_snoc hic (by simp)).symm
      have hids : pre ++ (P ++ c :: Q) = (pre ++ P ++ [c]) ++ Q := by simp
      rw [hl, hids]
      refine ih (by rw [← hids]; exact sp) ?_
      simp at hf; omega
    | none =>
      have hlow := firstAt_none.1 hc
      rw [Option.none_or, lastAt_append_low hlow, firstAt_append]
      cases hh : firstAt sl.lvl i H with
      | some h =>
        obtain ⟨P, Q, rfl, _, _⟩ := firstAt_some hh
        obtain ⟨e, hkv, hdec⟩ := sp.hit h (by simp)
        obtain ⟨n, hn, hk, _⟩ := SL.kv_some hkv
        simp only [Option.some_or, walk, SL.deref, idx_of_get hn, Outcome.ret_bind, hk, hdec, Outcome.pure_eq]
      | none =>
        rw [Option.none_or]
        cases hs : firstAt sl.lvl i S with
        | none => rfl
        | some c =>
          obtain ⟨P, Q, rfl, _, _⟩ := firstAt_some hs
          obtain ⟨e, hkv, hdec⟩ := sp.stop c (by simp)
          obtain ⟨n, hn, hk, _⟩ := SL.kv_some hkv
          simp only [walk, SL.deref, idx_of_get hn, Outcome.ret_bind, hk, hdec, Outcome.pure_eq]

/-- One level of the search, starting from a node found at a higher level (or the head). -/
theorem level_spec {dec : K → Dec} {sl : SL K V} {ids G H S : List Nat} {i j : Nat}
    (L : Linked sl.get sl.lvl ids) (sp : Split dec sl ids G H S) (hij : i ≤ j) (hi : i < 40)
    (hlen : ids.length ≤ sl.nodes.length) :
    ∃ cur, sl.nextAt (lastAt sl.lvl j G) i = .ret cur ∧
      walk dec sl i (sl.nodes.length + 1) (lastAt sl.lvl j G) cur =
        match firstAt sl.lvl i H with
        | some h => .ret (.inl h)
        | none => .ret (.inr (lastAt sl.lvl i G)) := by
  obtain ⟨pre, post, rfl, e⟩ := lastAt_lower (lvl := sl.lvl) hij G
  refine ⟨firstAt sl.lvl i (post ++ (H ++ S)), ?_, ?_⟩
  · rw [e]
    apply SL.nextAt_of_get
    have := sp.ids_eq; subst this
    rw [List.append_assoc] at L
    exact L.get_lastAt hi
  · rw [e]
    apply walk_spec L sp
    have := sp.ids_eq; subst this
    simp at hlen; omega

/-! ## The outer loops -/

/-- Common shape of the outer loops without `prevs`. -/
def findOuter (dec : K → Dec) (sl : SL K V) : Nat → Ref → Outcome (Nat ⊕ Ref)
  | 0, prev => .ret (.inr prev)
  | i + 1, prev => do
    let cur ← sl.nextAt prev i
    match ← walk dec sl i (sl.nodes.length + 1) prev cur with
    | .inl p => return .inl p
    | .inr prev => findOuter dec sl i prev

theorem doFindNodeOuter_eq [GoOrd K] (sl : SL K V) (key : K) (i : Nat) (prev : Ref) :
    sl.doFindNodeOuter key i prev = findOuter (decO key) sl i prev := by
  induction i generalizing prev with
  | zero => rfl
  | succ i ih => simp only [SL.doFindNodeOuter, findOuter, ih, doFindNodeInner_eq]; rfl

theorem lowerBoundOuterF_eq (f : K → K → Int) (sl : SL K V) (key : K) (i : Nat) (prev : Ref) :
    SL.lowerBoundOuterF f sl key i prev = findOuter (decF f key) sl i prev := by
  induction i generalizing prev with
  | zero => rfl
  | succ i ih => simp only [SL.lowerBoundOuterF, findOuter, ih, lowerBoundInnerF_eq]; rfl

/-- Common shape of the outer loops with `prevs`. -/
def prevOuter (dec : K → Dec) (sl : SL K V) :
    Nat → Ref → List (Option Ref) → Outcome (Option Nat × List (Option Ref))
  | 0, _, prevs => .ret (none, prevs)
  | i + 1, prev, prevs => do
    let cur ← sl.nextAt prev i
    match ← walk dec sl i (sl.nodes.length + 1) prev cur with
    | .inl p => return (some p, prevs)
    | .inr prev =>
      let prevs ← setIdx prevs i (some prev)
      prevOuter dec sl i prev prevs

theorem findInsertOuterO_eq [GoOrd K] (sl : SL K V) (key : K) (i : Nat) (prev : Ref) (prevs : List (Option Ref)) :
    sl.findInsertOuterO key i prev prevs = prevOuter (decO key) sl i prev prevs := by
  induction i generalizing prev prevs with
  | zero => rfl
  | succ i ih => simp only [SL.findInsertOuterO, prevOuter, ih, findInsertInnerO_eq]; rfl

theorem findInsertOuterF_eq (f : K → K → Int) (sl : SL K V) (key : K) (i : Nat) (prev : Ref) (prevs : List (Option Ref)) :
    SL.findInsertOuterF f sl key i prev prevs = prevOuter (decF f key) sl i prev prevs := by
  induction i generalizing prev prevs with
  | zero => rfl
  | succ i ih => simp only [SL.findInsertOuterF, prevOuter, ih, findInsertInnerF_eq]; rfl

theorem findPrevOuterO_eq [GoOrd K] (sl : SL K V) (key : K) (i : Nat) (prev : Ref) (prevs : List (Option Ref)) :
    (do let r ← sl.findPrevOuterO key i prev prevs; return (none, r)) = prevOuter (decPO key) sl i prev prevs := by
  induction i generalizing prev prevs with
  | zero => rfl
  | succ i ih =>
    simp only [SL.findPrevOuterO, prevOuter, ← ih, ← findPrevInnerO_eq, bind_assoc, pure_bind]

theorem findPrevOuterF_eq (f : K → K → Int) (sl : SL K V) (key : K) (i : Nat) (prev : Ref) (prevs : List (Option Ref)) :
    (do let r ← SL.findPrevOuterF f sl key i prev prevs; return (none, r)) = prevOuter (decPF f key) sl i prev prevs := by
  induction i generalizing prev prevs with
  | zero => rfl
  | succ i ih =>
    simp only [SL.findPrevOuterF, prevOuter, ← ih, ← findPrevInnerF_eq, bind_assoc, pure_bind]

/-- The search without `prevs`, hit or not. -/
theorem findOuter_miss {dec : K → Dec} {sl : SL K V} {ids G S : List Nat}
    (L : Linked sl.get sl.lvl ids) (sp : Split dec sl ids G [] S) (hlen : ids.length ≤ sl.nodes.length)
    (i j : Nat) (hij : i ≤ j + 1) (hi : i ≤ 40) :
    findOuter dec sl i (lastAt sl.lvl j G) = .ret (.inr (lastAt sl.lvl (if i = 0 then j else 0) G)) := by
  induction i generalizing j with
  | zero => rfl
  | succ i ih =>
    obtain ⟨cur, h1, h2⟩ := level_spec (i := i) (j := j) L sp (by omega) (by omega) hlen
    simp only [findOuter, h1, h2, Outcome.ret_bind]
    show findOuter dec sl i (lastAt sl.lvl i G) = _
    rw [ih i (by omega) (by omega)]
    by_cases h : i = 0 <;> simp [h]

theorem findOuter_hit {dec : K → Dec} {sl : SL K V} {ids G S : List Nat} {h : Nat}
    (L : Linked sl.get sl.lvl ids) (sp : Split dec sl ids G [h] S) (hlen : ids.length ≤ sl.nodes.length)
    (hh : 0 < sl.lvl h) (i j : Nat) (hij : i ≤ j + 1) (hi : i ≤ 40) (hpos : 0 < i) :
    findOuter dec sl i (lastAt sl.lvl j G) = .ret (.inl h) := by
  induction i generalizing j with
  | zero => omega
  | succ i ih =>
    obtain ⟨cur, h1, h2⟩ := level_spec (i := i) (j := j) L sp (by omega) (by omega) hlen
    simp only [findOuter, h1, h2, Outcome.ret_bind]
    by_cases hl : i < sl.lvl h
    · rw [firstAt_cons_pos hl]; rfl
    · rw [firstAt_cons_neg hl]
      exact ih i (by omega) (by omega) (by omega)

theorem prevOuter_hit {dec : K → Dec} {sl : SL K V} {ids G S : List Nat} {h : Nat}
    (L : Linked sl.get sl.lvl ids) (sp : Split dec sl ids G [h] S) (hlen : ids.length ≤ sl.nodes.length)
    (hh : 0 < sl.lvl h) (i j : Nat) (hij : i ≤ j + 1) (hi : i ≤ 40) (hpos : 0 < i)
    (prevs : List (Option Ref)) (hp : i ≤ prevs.length) :
    ∃ prevs', prevOuter dec sl i (lastAt sl.lvl j G) prevs = .ret (some h, prevs') ∧ prevs'.length = prevs.length ∧
      ∀ x, prevs'[x]? = prevs[x]? ∨ prevs'[x]? = some (some (lastAt sl.lvl x G)) := by
  induction i generalizing j prevs with
  | zero => omega
  | succ i ih =>
    obtain ⟨cur, h1, h2⟩ := level_spec (i := i) (j := j) L sp (by omega) (by omega) hlen
    simp only [prevOuter, h1, h2, Outcome.ret_bind]
    by_cases hl : i < sl.lvl h
    · rw [firstAt_cons_pos hl]; exact ⟨prevs, rfl, rfl, fun _ => .inl rfl⟩
    · rw [firstAt_cons_neg hl]
      obtain ⟨prevs', e1, e2, e3⟩ := ih i (by omega) (by omega) (by omega) (prevs.set i (some (lastAt sl.lvl i G)))
        (by simp; omega)
      refine ⟨prevs', ?_, by simpa using e2, fun x => ?_⟩
      · show ((setIdx prevs i (some (lastAt sl.lvl i G))) >>= _) = _
        rw [setIdx_of_lt (by omega)]; exact e1
      · rcases e3 x with e | e
        · by_cases hx : x = i
          · subst hx
            rw [e, List.getElem?_set_self (by omega)]; exact .inr rfl
          · rw [e, List.getElem?_set_ne (fun h => hx h.symm)]; exact .inl rfl
        · exact .inr e

theorem prevOuter_miss {dec : K → Dec} {sl : SL K V} {ids G S : List Nat}
    (L : Linked sl.get sl.lvl ids) (sp : Split dec sl ids G [] S) (hlen : ids.length ≤ sl.nodes.length)
    (i j : Nat) (hij : i ≤ j + 1) (hi : i ≤ 40) (prevs : List (Option Ref)) (hp : i ≤ prevs.length) :
    ∃ prevs', prevOuter dec sl i (lastAt sl.lvl j G) prevs = .ret (none, prevs') ∧ prevs'.length = prevs.length ∧
      (∀ x, x < i → prevs'[x]? = some (some (lastAt sl.lvl x G))) ∧ ∀ x, i ≤ x → prevs'[x]? = prevs[x]? := by
  induction i generalizing j prevs with
  | zero => exact ⟨prevs, rfl, rfl, by simp, by simp⟩
  | succ i ih =>
    obtain ⟨cur, h1, h2⟩ := level_spec (i := i) (j := j) L sp (by omega) (by omega) hlen
    obtain ⟨prevs', e1, e2, e3, e4⟩ := ih i (by omega) (by omega) (prevs.set i (some (lastAt sl.lvl i G)))
      (by simp; omega)
    simp only [prevOuter, h1, h2, Outcome.ret_bind]
    refine ⟨prevs', ?_, by simpa using e2, ?_, ?_⟩
    · show ((setIdx prevs i (some (lastAt sl.lvl i G))) >>= _) = _
      rw [setIdx_of_lt (by omega)]; exact e1
    · intro x hx
      by_cases hxi : x = i
      · subst hxi
        rw [e4 x (by omega), List.getElem?_set_self (by omega)]
      · exact e3 x (by omega)
    · intro x hx
      rw [e4 x (by omega), List.getElem?_set_ne (by omega)]

end Stl4go
