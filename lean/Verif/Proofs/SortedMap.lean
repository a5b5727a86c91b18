import Verif.Spec.SortedMap
import Verif.Proofs.Order
/-! # Lemmas about the sorted map specification -/
namespace Stl4go
variable {K V : Type} {less : K → K → Bool}

/-- Position of a key in a sorted map: smaller entries, at most one equivalent entry, larger entries. -/
structure SSplit (less : K → K → Bool) (key : K) (m G H S : List (K × V)) : Prop where
  eq : m = G ++ (H ++ S)
  go : ∀ e ∈ G, less e.1 key = true
  hit : ∀ e ∈ H, less e.1 key = false ∧ less key e.1 = false
  stop : ∀ e ∈ S, less key e.1 = true
  one : H.length ≤ 1

theorem SSplit.exists (hw : StrictWeak less) (key : K) (m : List (K × V)) (hs : SMap.Sorted less m) :
    ∃ G H S, SSplit less key m G H S := by
  induction m with
  | nil => exact ⟨[], [], [], rfl, by simp, by simp, by simp, by simp⟩
  | cons e m ih =>
    obtain ⟨h1, h2⟩ := List.pairwise_cons.1 hs
    cases he : less e.1 key with
    | true =>
      obtain ⟨G, H, S, sp⟩ := ih h2
      refine ⟨e :: G, H, S, by rw [sp.eq]; rfl, ?_, sp.hit, sp.stop, sp.one⟩
      intro x hx
      rcases List.mem_cons.1 hx with rfl | hx
      · exact he
      · exact sp.go x hx
    | false =>
      cases he2 : less key e.1 with
      | true =>
        refine ⟨[], [], e :: m, rfl, by simp, by simp, ?_, by simp⟩
        intro x hx
        rcases List.mem_cons.1 hx with rfl | hx
        · exact he2
        · exact hw.trans _ _ _ he2 (h1 x hx)
      | false =>
        refine ⟨[], [e], m, rfl, by simp, ?_, ?_, by simp⟩
        · intro x hx; simp at hx; subst hx; exact ⟨he, he2⟩
        · intro x hx
          exact hw.lt_of_not_of_lt he (h1 x hx)

theorem SSplit.cases {key : K} {m G H S : List (K × V)} (sp : SSplit less key m G H S) :
    H = [] ∨ ∃ e, H = [e] := by
  have := sp.one
  match H with
  | [] => exact .inl rfl
  | [e] => exact .inr ⟨e, rfl⟩
  | _ :: _ :: _ => simp at this

theorem SMap.find_split {key : K} {m G H S : List (K × V)} (sp : SSplit less key m G H S) :
    SMap.find less key m = H.head?.map (·.2) := by
  rw [sp.eq]
  have hgo := sp.go
  induction G generalizing m with
  | nil =>
    rcases sp.cases with rfl | ⟨e, rfl⟩
    · have hst := sp.stop
      clear sp
      simp only [List.nil_append]
      induction S with
      | nil => rfl
      | cons x S ih =>
        simp only [SMap.find, hst x (by simp), Bool.true_or, if_true]
        exact ih (fun y hy => hst y (by simp [hy]))
    · have := sp.hit e (by simp)
      simp [SMap.find, this.1, this.2]
  | cons x G ih =>
    have hx := hgo x (by simp)
    simp only [List.cons_append, SMap.find, hx, Bool.or_true, if_true]
    exact ih (m := G ++ (H ++ S)) ⟨rfl, fun e he => sp.go e (by simp [he]), sp.hit, sp.stop, sp.one⟩ (fun e he => hgo e (by simp [he]))

theorem SMap.insert_miss (hw : StrictWeak less) {key : K} {v : V} {m G S : List (K × V)} (sp : SSplit less key m G [] S) :
    SMap.insert less key v m = G ++ (key, v) :: S := by
  rw [sp.eq]
  have hgo := sp.go
  have hst := sp.stop
  clear sp
  induction G with
  | nil =>
    cases S with
    | nil => rfl
    | cons x S => simp [SMap.insert, hst x (by simp)]
  | cons x G ih =>
    have hx := hgo x (by simp)
    have hx' : less key x.1 = false := hw.asymm hx
    simp only [List.cons_append, SMap.insert, hx, hx', if_true]
    rw [← ih (fun e he => hgo e (by simp [he]))]; rfl

theorem SMap.insert_hit (hw : StrictWeak less) {key : K} {v : V} {m G S : List (K × V)} {e : K × V}
    (sp : SSplit less key m G [e] S) : SMap.insert less key v m = G ++ (e.1, v) :: S := by
  rw [sp.eq]
  have hgo := sp.go
  have hh := sp.hit e (by simp)
  clear sp
  induction G with
  | nil => simp [SMap.insert, hh.1, hh.2]
  | cons x G ih =>
    have hx := hgo x (by simp)
    have hx' : less key x.1 = false := hw.asymm hx
    simp only [List.cons_append, SMap.insert, hx, hx', if_true]
    rw [← ih (fun e he => hgo e (by simp [he]))]; rfl

theorem SMap.erase_split {key : K} {m G H S : List (K × V)} (sp : SSplit less key m G H S) :
    SMap.erase less key m = G ++ S := by
  have h1 : G.filter (fun e => less key e.1 || less e.1 key) = G :=
    List.filter_eq_self.2 (fun e he => by simp [sp.go e he])
  have h2 : H.filter (fun e => less key e.1 || less e.1 key) = [] :=
    List.filter_eq_nil_iff.2 (fun e he => by simp [sp.hit e he])
  have h3 : S.filter (fun e => less key e.1 || less e.1 key) = S :=
    List.filter_eq_self.2 (fun e he => by simp [sp.stop e he])
  rw [sp.eq, SMap.erase, List.filter_append, List.filter_append, h1, h2, h3]
  rfl

theorem SMap.lower_split (hw : StrictWeak less) {key : K} {m G H S : List (K × V)} (sp : SSplit less key m G H S) :
    m.filter (fun e => !(less e.1 key)) = H ++ S := by
  have h1 : G.filter (fun e => !(less e.1 key)) = [] :=
    List.filter_eq_nil_iff.2 (fun e he => by simp [sp.go e he])
  have h2 : H.filter (fun e => !(less e.1 key)) = H :=
    List.filter_eq_self.2 (fun e he => by simp [sp.hit e he])
  have h3 : S.filter (fun e => !(less e.1 key)) = S :=
    List.filter_eq_self.2 (fun e he => by simp [hw.asymm (sp.stop e he)])
  rw [sp.eq, List.filter_append, List.filter_append, h1, h2, h3]
  rfl

theorem SMap.upper_split (hw : StrictWeak less) {key : K} {m G H S : List (K × V)} (sp : SSplit less key m G H S) :
    m.filter (fun e => less key e.1) = S := by
  have h1 : G.filter (fun e => less key e.1) = [] :=
    List.filter_eq_nil_iff.2 (fun e he => by simp [hw.asymm (sp.go e he)])
  have h2 : H.filter (fun e => less key e.1) = [] :=
    List.filter_eq_nil_iff.2 (fun e he => by simp [sp.hit e he])
  have h3 : S.filter (fun e => less key e.1) = S :=
    List.filter_eq_self.2 (fun e he => by simp [sp.stop e he])
  rw [sp.eq, List.filter_append, List.filter_append, h1, h2, h3]
  rfl

theorem SMap.sorted_split {m G H S : List (K × V)} (hs : SMap.Sorted less m) (e : m = G ++ (H ++ S)) :
    SMap.Sorted less (G ++ S) := by
  subst e
  exact List.Pairwise.sublist (List.Sublist.append (List.Sublist.refl _) (List.sublist_append_right _ _)) hs

/-- Putting an entry at the position of its key keeps the map sorted. -/
theorem SMap.sorted_put (hw : StrictWeak less) {key : K} {m G H S : List (K × V)} (hs : SMap.Sorted less m)
    (sp : SSplit less key m G H S) {k : K} {v : V} (hk : less k key = false ∧ less key k = false) :
    SMap.Sorted less (G ++ (k, v) :: S) := by
  have h := SMap.sorted_split hs sp.eq
  unfold SMap.Sorted at h ⊢
  rw [List.pairwise_append] at h ⊢
  refine ⟨h.1, List.pairwise_cons.2 ⟨?_, h.2.1⟩, ?_⟩
  · intro e he
    exact hw.lt_of_not_of_lt hk.2 (sp.stop e he)
  · intro a ha b hb
    rcases List.mem_cons.1 hb with rfl | hb
    · exact hw.lt_of_lt_of_not (sp.go a ha) hk.1
    · exact h.2.2 a ha b hb

theorem SMap.sorted_insert (hw : StrictWeak less) {m : List (K × V)} (hs : SMap.Sorted less m) (k : K) (v : V) :
    SMap.Sorted less (SMap.insert less k v m) := by
  obtain ⟨G, H, S, sp⟩ := SSplit.exists hw k m hs
  rcases sp.cases with rfl | ⟨e, rfl⟩
  · rw [SMap.insert_miss hw sp]
    exact SMap.sorted_put hw hs sp ⟨hw.irrefl k, hw.irrefl k⟩
  · rw [SMap.insert_hit hw sp]
    exact SMap.sorted_put hw hs sp (sp.hit e (by simp))

theorem SMap.sorted_erase {m : List (K × V)} (hs : SMap.Sorted less m) (k : K) :
    SMap.Sorted less (SMap.erase less k m) := List.Pairwise.filter _ hs

theorem SMap.sorted_step (hw : StrictWeak less) {m : List (K × V)} (hs : SMap.Sorted less m) (op : SMOp K V) :
    SMap.Sorted less (SMap.step less m op).2 := by
  cases op <;> simp only [SMap.step] <;> try exact hs
  · exact SMap.sorted_insert hw hs _ _
  · exact SMap.sorted_erase hs _
  · exact List.Pairwise.nil
  · split
    · exact SMap.sorted_insert hw hs _ _
    · exact hs

end Stl4go
