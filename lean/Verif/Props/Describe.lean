import Verif.Props.Script
import Verif.Props.RoundTrip
import Verif.Spec.Edit

set_option autoImplicit false
set_option linter.unusedSectionVars false

/-!
# C63: the edit script describes the new tree

Read as a description (`Spec/Edit`), the edit script says where every node of the new tree is and what it is like.
This needs no condition on the order of the operations, in contrast to C01.
-/

namespace Hotmeal

variable {H : Type} [DecidableEq H]

/-- What the description needs to know about the trees and the matching: it is one-to-one, matches nodes of the
same kind, matches the roots, and leaves opaque content alone. -/
structure Pairing (A B : Arena TData) (ra rb : Nat) (M : Matching) : Prop where
  aw : A.WF
  bw : B.WF
  alt : ra < A.next
  aroot : A.parent ra = none
  getB : ∀ a b, M.getB a = some b ↔ (a, b) ∈ M.pairs
  getA : ∀ a b, M.getA b = some a ↔ (a, b) ∈ M.pairs
  within : ∀ a b, (a, b) ∈ M.pairs → A.Anc ra a ∧ B.Anc rb b
  root : (ra, rb) ∈ M.pairs
  kind : ∀ a b, (a, b) ∈ M.pairs → (A.data a).kind = (B.data b).kind
  text : ∀ a b, (a, b) ∈ M.pairs → (B.data b).text = none → (A.data a).text = none
  unique : ∀ a b, (a, b) ∈ M.pairs → (A.data a).props.Unique ∧ (B.data b).props.Unique
  clear : ∀ a b, (a, b) ∈ M.pairs → ¬ InsideOpaque A ra a ∧ ¬ InsideOpaque B rb b

/-- Nodes of a tree that are not inside an opaque element. -/
def Open (A : Arena TData) (r n : Nat) : Prop := A.Anc r n ∧ ¬ InsideOpaque A r n

/-- The nodes of the tree that comes out: open nodes of the old tree that are not deleted, and inserted nodes. -/
def Present (A : Arena TData) (ra : Nat) (ops : List EditOp) : EditNode → Prop
  | .kept a => Open A ra a ∧ .delete a ∉ ops
  | .fresh b => ∃ pb i k, .insert b pb i k ∈ ops

theorem attrsAfter_diffLoop (old : Attrs) (o : Bool) : ∀ (f : Bool) (new : Attrs),
    AttrsAfter old (Attrs.diffLoop old o f new) new := by
  intro f new
  induction new generalizing f with
  | nil => exact .nil
  | cons kv new ih =>
    obtain ⟨q, v⟩ := kv
    simp only [Attrs.diffLoop]
    split
    · next h =>
      refine .same ?_ (ih _)
      have := h.1
      unfold Attrs.find at this
      cases e : old.find? (fun kv => decide (kv.1 = q)) with
      | none => simp [e] at this
      | some kv =>
        simp only [e, Option.map_some, Option.some.injEq] at this
        have h1 := List.find?_some e
        have h2 := List.mem_of_find?_eq_some e
        simp only [decide_eq_true_eq] at h1
        rw [← h1, ← this]; exact h2
    · exact .different (ih _)

theorem AttrsAfter.unique {old : Attrs} (hu : old.Unique) {ch : List PropFinal} {n1 n2 : Attrs}
    (h1 : AttrsAfter old ch n1) (h2 : AttrsAfter old ch n2) : n1 = n2 := by
  induction h1 generalizing n2 with
  | nil => cases h2; rfl
  | different _ ih => cases h2 with | different h => rw [ih h]
  | same hm _ ih =>
    cases h2 with
    | same hm' h =>
      have e1 := Attrs.value_of_mem hu hm
      have e2 := Attrs.value_of_mem hu hm'
      rw [e1] at e2
      cases e2
      rw [ih h]

section
variable {hashNode : HKind → Option Str → List H → H} {A B : Arena TData} {ra rb : Nat} {M : Matching}

theorem Pairing.fn1 (h : Pairing A B ra rb M) {a b b' : Nat} (h1 : (a, b) ∈ M.pairs) (h2 : (a, b') ∈ M.pairs) :
    b = b' := by
  have h1 := (h.getB a b).2 h1
  have h2 := (h.getB a b').2 h2
  rw [h1] at h2; injection h2

theorem Pairing.fn2 (h : Pairing A B ra rb M) {a a' b : Nat} (h1 : (a, b) ∈ M.pairs) (h2 : (a', b) ∈ M.pairs) :
    a = a' := by
  have h1 := (h.getA a b).2 h1
  have h2 := (h.getA a' b).2 h2
  rw [h1] at h2; injection h2

theorem Open.up {r b p : Nat} (hw : B.WF) (hb : Open B r b) (hp : B.parent b = some p) (hne : b ≠ r) : Open B r p := by
  have ha : B.Anc r p := by
    rcases hb.1.cases' with e | ⟨q, hq, h⟩
    · exact absurd e.symm hne
    · rw [hp] at hq; cases hq; exact h
  refine ⟨ha, ?_⟩
  rintro ⟨o, h1, h2, h3, h4⟩
  refine hb.2 ⟨o, h1, h2, .step hp h3, ?_⟩
  rintro rfl
  exact hw.self_parent_ne hp (hw.anc_antisymm (.step hp .refl) h3)

/-- An update of a kept node is for the node it is matched with. -/
theorem Pairing.update_partner (h : Pairing A B ra rb M) {a b b' : Nat} {ch : List PropFinal}
    (hm : .updateProps a b' ch ∈ scriptOf hashNode A B ra rb M) (hab : (a, b) ∈ M.pairs) : b' = b := by
  rcases mem_scriptOf.1 hm with h' | h' | h' | h'
  · obtain ⟨p, h1, _, _, h' | h'⟩ := mem_updateOps.1 h'
    · unfold textOps at h'
      split at h'
      · cases h'
      · split at h'
        · simp at h'
        · cases h'
    · rw [Plan.propOps_eq] at h'
      split at h'
      · simp only [List.mem_singleton] at h'
        cases h'
        exact h.fn1 h1 hab
      · cases h'
  · obtain ⟨_, _, _, _, _, _, e⟩ := mem_insertOps.1 h'; cases e
  · obtain ⟨_, _, _, _, _, _, _, _, _, _, e⟩ := mem_moveOps.1 h'; cases e
  · obtain ⟨_, _, _, _, e⟩ := mem_deleteOps.1 h'; cases e

/-- **C63.** Every open node of the new tree has exactly one node that stands for it, and that is a node of the
tree that comes out. -/
theorem C63_every_new_node_is_described (h : Pairing A B ra rb M) (b : Nat) (hb : Open B rb b) :
    ∃ r, Stands M.pairs (scriptOf hashNode A B ra rb M) b r ∧ Present A ra (scriptOf hashNode A B ra rb M) r ∧
      ∀ r', Stands M.pairs (scriptOf hashNode A B ra rb M) b r' → r' = r := by
  cases e : M.getA b with
  | some a =>
    have hab := (h.getA a b).1 e
    refine ⟨.kept a, .kept hab, ⟨⟨(h.within a b hab).1, (h.clear a b hab).1⟩, fun hd => ?_⟩, fun r' hr => ?_⟩
    · have := ((C11_deletes_are_the_unmatched h.aw h.alt M a).1 hd).2.1
      rw [(h.getB a b).2 hab] at this
      cases this
    · cases hr with
      | kept h' => rw [h.fn2 h' hab]
      | fresh h' =>
        have := ((C10_inserts_are_the_unmatched h.bw M _ _ _ _).1 h').2.1
        rw [e] at this; cases this
  | none =>
    have hne : b ≠ rb := by
      rintro rfl
      rw [(h.getA ra b).2 h.root] at e; cases e
    obtain ⟨p, hp⟩ : ∃ p, B.parent b = some p := by
      rcases hb.1.cases' with e | ⟨q, hq, _⟩
      · exact absurd e.symm hne
      · exact ⟨q, hq⟩
    have hi : .insert b p _ (B.data b).kind ∈ scriptOf hashNode A B ra rb M :=
      (C10_inserts_are_the_unmatched h.bw M _ _ _ _).2
        ⟨hb.1, e, hb.2, hp, atIndex_position hashNode B rb h.bw b, rfl⟩
    refine ⟨.fresh b, .fresh hi, ⟨_, _, _, hi⟩, fun r' hr => ?_⟩
    cases hr with
    | kept h' => rw [(h.getA _ b).2 h'] at e; cases e
    | fresh _ => rfl

/-- **C63.** Every node of the tree that comes out stands for exactly one node of the new tree. -/
theorem C63_nothing_else_is_described (h : Pairing A B ra rb M) (r : EditNode)
    (hr : Present A ra (scriptOf hashNode A B ra rb M) r) :
    ∃ b, Open B rb b ∧ Stands M.pairs (scriptOf hashNode A B ra rb M) b r ∧
      ∀ b', Stands M.pairs (scriptOf hashNode A B ra rb M) b' r → b' = b := by
  cases r with
  | kept a =>
    cases e : M.getB a with
    | none =>
      exact absurd ((C11_deletes_are_the_unmatched h.aw h.alt M a).2 ⟨hr.1.1, e, hr.1.2⟩) hr.2
    | some b =>
      have hab := (h.getB a b).1 e
      refine ⟨b, ⟨(h.within a b hab).2, (h.clear a b hab).2⟩, .kept hab, fun b' hb' => ?_⟩
      cases hb' with
      | kept h' => exact h.fn1 h' hab
  | fresh b =>
    obtain ⟨pb, i, k, hi⟩ := hr
    obtain ⟨h1, h2, h3, _⟩ := (C10_inserts_are_the_unmatched h.bw M _ _ _ _).1 hi
    refine ⟨b, ⟨h1, h3⟩, .fresh hi, fun b' hb' => ?_⟩
    cases hb' with
    | fresh _ => rfl

/-- **C63.** In the tree that comes out, the node that stands for `b` is below the node that stands for the parent
of `b`, at the index of `b`, and nowhere else. -/
theorem C63_every_node_is_placed (h : Pairing A B ra rb M) {b p i : Nat} (hb : Open B rb b) (hne : b ≠ rb)
    (hp : B.parent b = some p) (hi : (B.children p)[i]? = some b) {r q : EditNode}
    (hr : Stands M.pairs (scriptOf hashNode A B ra rb M) b r)
    (hq : Stands M.pairs (scriptOf hashNode A B ra rb M) p q) (q' : EditNode) (j : Nat) :
    Placed A M.pairs (scriptOf hashNode A B ra rb M) r q' j ↔ q' = q ∧ j = i := by
  have hop := hb.up h.bw hp hne
  obtain ⟨r0, _, _, hu⟩ := C63_every_new_node_is_described (hashNode := hashNode) h p hop
  have hat : AtIndex B b i := by simp only [AtIndex, hp]; exact hi
  have huq : ∀ q'', Stands M.pairs (scriptOf hashNode A B ra rb M) p q'' → q'' = q := fun q'' h' => by
    rw [hu _ h', hu _ hq]
  cases hr with
  | @fresh _ pb i' k hins =>
    obtain ⟨_, _, _, h4, h5, _⟩ := (C10_inserts_are_the_unmatched h.bw M _ _ _ _).1 hins
    rw [hp] at h4; cases h4
    have hii := atIndex_inj B h.bw h5 hat
    subst hii
    constructor
    · intro hpl
      cases hpl with
      | insert hi' hs =>
        obtain ⟨_, _, _, h4', h5', _⟩ := (C10_inserts_are_the_unmatched h.bw M _ _ _ _).1 hi'
        rw [hp] at h4'; cases h4'
        exact ⟨huq _ hs, atIndex_inj B h.bw h5' hat⟩
    · rintro ⟨rfl, rfl⟩
      exact .insert hins hq
  | @kept a _ hab =>
    have hra : a ≠ ra := by
      rintro rfl
      exact hne (h.fn1 hab h.root)
    obtain ⟨pa, hpa⟩ : ∃ pa, A.parent a = some pa := by
      rcases (h.within a b hab).1.cases' with e | ⟨x, hx, _⟩
      · exact absurd e.symm hra
      · exact ⟨x, hx⟩
    have hmove := fun b' pb pos => C12_moves_exactly_when_needed (hashNode := hashNode) (ra := ra) (rb := rb) h.aw h.bw M a b' pb pos
    have hnd : .delete a ∉ scriptOf hashNode A B ra rb M := by
      intro hd
      have := ((C11_deletes_are_the_unmatched h.aw h.alt M a).1 hd).2.1
      rw [(h.getB a b).2 hab] at this
      cases this
    have hmem := (h.aw.mem_iff _ _).2 hpa
    obtain ⟨ia, hia⟩ := List.getElem?_of_mem hmem
    have hata : AtIndex A a ia := by simp only [AtIndex, hpa]; exact hia
    by_cases hc : M.getB pa ≠ some p ∨ ¬ AtIndex A a i
    · have hm : .move a b p i ∈ scriptOf hashNode A B ra rb M :=
        (hmove b p i).2 ⟨hab, (h.clear a b hab).1, (h.clear a b hab).2, hp, hat, pa, hpa, hc⟩
      constructor
      · intro hpl
        cases hpl with
        | move hm' hs =>
          obtain ⟨h1, _, _, h4, h5, _⟩ := (hmove _ _ _).1 hm'
          have := h.fn1 h1 hab
          subst this
          rw [hp] at h4; cases h4
          exact ⟨huq _ hs, atIndex_inj B h.bw h5 hat⟩
        | stay hnm _ _ _ => exact absurd hm (hnm _ _ _)
      · rintro ⟨rfl, rfl⟩
        exact .move hm hq
    · have hc1 : M.getB pa = some p := Classical.byContradiction fun e => hc (.inl e)
      have hc2 : AtIndex A a i := Classical.byContradiction fun e => hc (.inr e)
      have hii := atIndex_inj A h.aw hc2 hata
      subst hii
      have hqe : q = .kept pa := (huq _ (.kept ((h.getB _ _).1 hc1))).symm
      have hnm : ∀ b' pb j, .move a b' pb j ∉ scriptOf hashNode A B ra rb M := by
        intro b' pb j hm
        obtain ⟨h1, _, _, h4, h5, pa', h6, h7⟩ := (hmove _ _ _).1 hm
        have := h.fn1 h1 hab
        subst this
        rw [hp] at h4; cases h4
        rw [hpa] at h6; cases h6
        have := atIndex_inj B h.bw h5 hat
        subst this
        rcases h7 with h7 | h7
        · exact h7 hc1
        · exact h7 hc2
      constructor
      · intro hpl
        cases hpl with
        | move hm' hs => exact absurd hm' (hnm _ _ _)
        | stay _ _ h3 h4 =>
          rw [hpa] at h3; cases h3
          exact ⟨hqe.symm, List.nodup_getElem?_inj (h.aw.nodup pa) h4 hia⟩
      · rintro ⟨rfl, rfl⟩
        rw [hqe]
        exact .stay hnm hnd hpa hia

/-- **C63.** The root of the old tree stands for the root of the new tree and is below nothing. -/
theorem C63_root (h : Pairing A B ra rb M) :
    Stands M.pairs (scriptOf hashNode A B ra rb M) rb (.kept ra) ∧
    ∀ q j, ¬ Placed A M.pairs (scriptOf hashNode A B ra rb M) (.kept ra) q j := by
  refine ⟨.kept h.root, fun q j hpl => ?_⟩
  cases hpl with
  | move hm _ =>
    obtain ⟨_, _, _, _, _, pa, h6, _⟩ := (C12_moves_exactly_when_needed h.aw h.bw M _ _ _ _).1 hm
    rw [h.aroot] at h6; cases h6
  | stay _ _ h3 _ => rw [h.aroot] at h3; cases h3

/-- **C63.** A kept node gets the kind, text and attributes of the node it stands for, and no other ones. -/
theorem C63_kept_content (h : Pairing A B ra rb M) {a b : Nat}
    (hr : Stands M.pairs (scriptOf hashNode A B ra rb M) b (.kept a)) :
    (A.data a).kind = (B.data b).kind ∧
    (∀ t, TextAfter A (scriptOf hashNode A B ra rb M) a t ↔ t = (B.data b).text) ∧
    (∀ l, PropsAfter A (scriptOf hashNode A B ra rb M) a l ↔ l = (B.data b).props) := by
  cases hr with
  | kept hab =>
    have hcl := h.clear a b hab
    obtain ⟨hua, hub⟩ := h.unique a b hab
    have hst := fun b' t => C13_text_updates_exactly_when_needed (hashNode := hashNode) (ra := ra) (rb := rb) h.aw h.bw M a b' t
    refine ⟨h.kind a b hab, fun t => ⟨fun ht => ?_, fun e => ?_⟩, fun l => ⟨fun hl => ?_, fun e => ?_⟩⟩
    · cases ht with
      | set hm =>
        obtain ⟨h1, _, _, h4, _⟩ := (hst _ _).1 hm
        rw [h.fn1 h1 hab] at h4; exact h4.symm
      | same hno =>
        cases e : (B.data b).text with
        | none => exact h.text a b hab e
        | some t =>
          apply Classical.byContradiction
          intro hne
          exact hno b t ((hst b t).2 ⟨hab, hcl.1, hcl.2, e, hne⟩)
    · subst e
      by_cases e : (A.data a).text = (B.data b).text
      · rw [← e]
        refine .same fun b' t hm => ?_
        obtain ⟨h1, _, _, h4, h5⟩ := (hst _ _).1 hm
        rw [h.fn1 h1 hab] at h4
        exact h5 (e.trans h4)
      · cases et : (B.data b).text with
        | none => exact absurd ((h.text a b hab et).trans et.symm) e
        | some t => exact .set ((hst b t).2 ⟨hab, hcl.1, hcl.2, et, fun e' => e (e'.trans et.symm)⟩)
    · cases hl with
      | @update b' ch _ hm ha =>
        have hbb : b' = b := h.update_partner hm hab
        subst hbb
        obtain ⟨_, _, _, _, rfl⟩ :=
          (C13_prop_updates_exactly_when_needed h.aw h.bw M a b' hua hub _).1 hm
        exact ha.unique hua (attrsAfter_diffLoop _ _ _ _)
      | same hno =>
        apply Classical.byContradiction
        intro hne
        exact hno b _ ((C13_prop_updates_exactly_when_needed h.aw h.bw M a b hua hub _).2
          ⟨hab, hcl.1, hcl.2, hne, rfl⟩)
    · subst e
      by_cases e : (A.data a).props = (B.data b).props
      · rw [← e]
        refine .same fun b' ch hm => ?_
        have := h.update_partner hm hab
        subst this
        exact ((C13_prop_updates_exactly_when_needed h.aw h.bw M a b' hua hub _).1 hm).2.2.2.1 e
      · exact .update ((C13_prop_updates_exactly_when_needed h.aw h.bw M a b hua hub _).2
          ⟨hab, hcl.1, hcl.2, e, rfl⟩) (attrsAfter_diffLoop _ _ _ _)

/-- **C63.** The operation that inserts a node says of what kind it is. -/
theorem C63_fresh_kind (h : Pairing A B ra rb M) {b pb i : Nat} {k : HKind}
    (hi : .insert b pb i k ∈ scriptOf hashNode A B ra rb M) : k = (B.data b).kind :=
  ((C10_inserts_are_the_unmatched h.bw M _ _ _ _).1 hi).2.2.2.2.2

/-- An open node of the new tree is one that something stands for. -/
theorem Pairing.open_iff (h : Pairing A B ra rb M) (b : Nat) :
    Open B rb b ↔ ∃ r, Stands M.pairs (scriptOf hashNode A B ra rb M) b r ∧
      Present A ra (scriptOf hashNode A B ra rb M) r := by
  constructor
  · intro hb
    obtain ⟨r, h1, h2, _⟩ := C63_every_new_node_is_described (hashNode := hashNode) h b hb
    exact ⟨r, h1, h2⟩
  · rintro ⟨r, h1, h2⟩
    obtain ⟨b', h3, _, h4⟩ := C63_nothing_else_is_described h r h2
    rw [h4 b h1]; exact h3

/-- **C63.** The edit script and the matched pairs determine the new tree: if two new trees give the same script and
pairs, they have the same nodes with the same parents, indices and kinds, and the nodes kept from the old tree have
the same texts and attributes. -/
theorem C63_script_determines_new_tree {B' : Arena TData} {rb' : Nat} {M' : Matching} (h : Pairing A B ra rb M)
    (h' : Pairing A B' ra rb' M') (ep : M'.pairs = M.pairs)
    (es : scriptOf hashNode A B' ra rb' M' = scriptOf hashNode A B ra rb M) :
    rb' = rb ∧ (∀ b, Open B' rb' b ↔ Open B rb b) ∧
    (∀ b, Open B rb b → b ≠ rb → ∃ p i : Nat, B.parent b = some p ∧ B'.parent b = some p ∧
      (B.children p)[i]? = some b ∧ (B'.children p)[i]? = some b) ∧
    (∀ b, Open B rb b → (B'.data b).kind = (B.data b).kind) ∧
    ∀ a b, (a, b) ∈ M.pairs → (B'.data b).text = (B.data b).text ∧ (B'.data b).props = (B.data b).props := by
  have er : rb' = rb := by
    have := h'.root
    rw [ep] at this
    exact h.fn1 this h.root
  subst er
  have ho : ∀ b, Open B' rb' b ↔ Open B rb' b := fun b => by
    rw [h.open_iff (hashNode := hashNode), h'.open_iff (hashNode := hashNode), ep, es]
  refine ⟨rfl, ho, fun b hb hne => ?_, fun b hb => ?_, fun a b hab => ?_⟩
  · have par : ∀ {B : Arena TData}, B.WF → Open B rb' b →
        ∃ p i : Nat, B.parent b = some p ∧ (B.children p)[i]? = some b := by
      intro B hw hb
      rcases hb.1.cases' with e | ⟨p, hp, _⟩
      · exact absurd e.symm hne
      · obtain ⟨i, hi⟩ := List.getElem?_of_mem ((hw.mem_iff _ _).2 hp)
        exact ⟨p, i, hp, hi⟩
    have hb' := (ho b).2 hb
    obtain ⟨p, i, hp, hi⟩ := par h.bw hb
    obtain ⟨p', i', hp', hi'⟩ := par h'.bw hb'
    obtain ⟨r, h1, _, _⟩ := C63_every_new_node_is_described (hashNode := hashNode) h b hb
    obtain ⟨q, h2, h2p, _⟩ := C63_every_new_node_is_described (hashNode := hashNode) h p (hb.up h.bw hp hne)
    obtain ⟨q', h3, _, _⟩ := C63_every_new_node_is_described (hashNode := hashNode) h' p' (hb'.up h'.bw hp' hne)
    have hpl := (C63_every_node_is_placed h hb hne hp hi h1 h2 q i).2 ⟨rfl, rfl⟩
    rw [← es, ← ep] at hpl h1 h2
    obtain ⟨e1, e2⟩ := (C63_every_node_is_placed h' hb' hne hp' hi' h1 h3 q i).1 hpl
    subst e1 e2
    rw [es, ep] at h2 h3
    obtain ⟨_, _, _, h5⟩ := C63_nothing_else_is_described h q h2p
    have := (h5 p h2).trans (h5 p' h3).symm
    subst this
    exact ⟨p, i, hp, hp', hi, hi'⟩
  · obtain ⟨r, h1, h2, _⟩ := C63_every_new_node_is_described (hashNode := hashNode) h b hb
    cases h1 with
    | kept hab => rw [← h.kind _ _ hab, ← h'.kind _ _ (by rw [ep]; exact hab)]
    | fresh hi =>
      have e1 := C63_fresh_kind h hi
      rw [← es] at hi
      rw [← C63_fresh_kind h' hi, e1]
  · obtain ⟨_, h1, h2⟩ := C63_kept_content (hashNode := hashNode) h (a := a) (b := b) (.kept hab)
    obtain ⟨_, h3, h4⟩ := C63_kept_content (hashNode := hashNode) h' (a := a) (b := b) (.kept (by rw [ep]; exact hab))
    rw [es] at h3 h4
    exact ⟨(h1 _).1 ((h3 _).2 rfl), (h2 _).1 ((h4 _).2 rfl)⟩

/-- **C63** applies to what the crate `cinereus` computes, with any configuration, for trees without opaque nodes
whose roots are matched. -/
theorem C63_cinereus (hashNode : HKind → Option Str → List H → H) (hA : A.WF) (hB : B.WF) (hra : ra < A.next) (hrb : rb < B.next)
    (hroot : A.parent ra = none) (hc : NoCollisionFrom hashNode A ra B rb) (cfg : Config)
    (hoA : ∀ n < A.next, (A.data n).props.isOpaque = false) (hoB : ∀ n < B.next, (B.data n).props.isOpaque = false)
    (huA : ∀ n < A.next, (A.data n).props.Unique) (huB : ∀ n < B.next, (B.data n).props.Unique)
    (ht : ∀ a < A.next, ∀ b < B.next, (A.data a).kind = (B.data b).kind → (B.data b).text = none →
      (A.data a).text = none)
    (hm : (ra, rb) ∈ (computeMatching (DiffTree.ofArena hashNode A ra) (DiffTree.ofArena hashNode B rb) cfg).pairs) :
    Pairing A B ra rb (computeMatching (DiffTree.ofArena hashNode A ra) (DiffTree.ofArena hashNode B rb) cfg) := by
  obtain ⟨h1, h2, _⟩ := C08_matching_one_to_one (DiffTree.ofArena hashNode A ra) (DiffTree.ofArena hashNode B rb) cfg
  have hk := fun a b => C09_same_kind hashNode A B hA hB ra rb hc cfg a b
  have below : ∀ {A : Arena TData} {r n : Nat}, A.WF → r < A.next → A.Anc r n → n < A.next := by
    intro A r n hw hr ha
    rcases ha.cases' with e | ⟨q, hq, _⟩
    · rw [← e]; exact hr
    · exact (hw.lt_of_parent _ _ hq).1
  have la := fun a b hab => below hA hra (hk a b hab).2.1
  have lb := fun a b hab => below hB hrb (hk a b hab).2.2
  exact
    { aw := hA, bw := hB, alt := hra, aroot := hroot, getB := h2, getA := fun a b => by rw [← h2, h1]
      within := fun a b hab => (hk a b hab).2, root := hm, kind := fun a b hab => (hk a b hab).1
      text := fun a b hab => ht a (la a b hab) b (lb a b hab) (hk a b hab).1
      unique := fun a b hab => ⟨huA a (la a b hab), huB b (lb a b hab)⟩
      clear := fun a b _ => ⟨(fun ⟨o, ho, h, _⟩ => by rw [hoA o (below hA hra ho)] at h; cases h),
        (fun ⟨o, ho, h, _⟩ => by rw [hoB o (below hB hrb ho)] at h; cases h)⟩ }

end

section
variable {hashNode : HKind → Option Str → List H → H} {old new : Document} {ob nb : Nat}

/-- **C63** applies to the script of `diff`, for documents that can be compared, whether or not the matching turns
ancestors upside down. -/
theorem C63_diff (h : Comparable old new ob nb)
    (hc : NoCollision hashNode (buildTree old ob) (diffable new) nb) (ho : OpaqueAgree hashNode old new ob nb) :
    Pairing (buildTree old ob) (diffable new) 0 nb
      (diffMatching (oldTree hashNode old ob) (newTree hashNode new nb)) := by
  obtain ⟨g, hb⟩ := buildTree_spec old h.old.sound.arena.leafy ob
  have P := h.plan hashNode hc ho hb
  refine
    { aw := P.aw, bw := P.bw, alt := P.apos, aroot := P.a0, getB := P.getB, getA := P.getA
      within := fun a b hab => ⟨P.areach a (P.lt a b hab).1, (P.lt a b hab).2⟩, root := P.root, kind := P.kind
      text := fun a b hab e => ?_, unique := fun a b hab => ?_, clear := P.clear }
  · obtain ⟨⟨nd, _, e1⟩, _⟩ := P.at_ a (P.lt a b hab).1
    obtain ⟨⟨nd', _, e2⟩, _⟩ := P.bt b (P.lt a b hab).2
    have hk := P.kind a b hab
    rw [e1, e2] at hk
    rw [e2] at e
    rw [e1]
    obtain ⟨k, ns⟩ := nd
    obtain ⟨k', ns'⟩ := nd'
    cases k <;> cases k' <;> simp_all [tdataOf]
  · obtain ⟨⟨nd, hn, e1⟩, hcl⟩ := P.at_ a (P.lt a b hab).1
    obtain ⟨⟨nd', hn', e2⟩, hcl'⟩ := P.bt b (P.lt a b hab).2
    have key : ∀ nd : NodeData, nd.kind ≠ .document → (kindOf (tdataOf nd)).Clean → (tdataOf nd).props.Unique := by
      intro nd hn hcl
      rw [kindOf_tdataOf hn] at hcl
      obtain ⟨k, ns⟩ := nd
      cases k with
      | element tag attrs => exact hcl
      | _ => exact List.nodup_nil
    rw [e1, e2]
    rw [e1] at hcl
    rw [e2] at hcl'
    exact ⟨key nd hn hcl, key nd' hn' hcl'⟩

end

/-! ### Concrete cases -/

/-- The documents whose patches do not apply (`C01_violated`) meet the hypotheses: their edit script describes the
new tree nevertheless. -/
example : Pairing (buildTree (.ofForest bad1) 2) (diffable (.ofForest bad2)) 0 2
      (diffMatching (oldTree Shape.node (.ofForest bad1) 2) (newTree Shape.node (.ofForest bad2) 2)) ∧
    phaseCounts (script Shape.node (.ofForest bad1) (.ofForest bad2) 2 2) = [0, 1, 3, 3] :=
  ⟨C63_diff (comparable_ofForest (by decide +kernel) (by decide +kernel)) (noCollision_shape _ _ _)
    (opaqueFixed_ofForest (by decide +kernel) (by decide +kernel)).agree, by decide +kernel⟩

/-- The trees of `ex1` and `ex2` meet the hypotheses of `C63_cinereus` with the default configuration of the
crate, which matches leaves only bottom-up. -/
example : Pairing (buildTree (.ofForest ex1) 2) (buildTree (.ofForest ex2) 2) 0 0
    (computeMatching (oldTree Shape.node (.ofForest ex1) 2) (oldTree Shape.node (.ofForest ex2) 2)
      ⟨⟨1, 2⟩, 1⟩) := by
  obtain ⟨g, hg⟩ := buildTree_spec (.ofForest ex1) (ofForest_valid ex1 (by decide +kernel)).leafy 2
  obtain ⟨g', hg'⟩ := buildTree_spec (.ofForest ex2) (ofForest_valid ex2 (by decide +kernel)).leafy 2
  exact C63_cinereus Shape.node hg.wf hg'.wf hg.pos hg'.pos hg.root (noCollision_shape _ _ _) _
    (by decide +kernel) (by decide +kernel) (by decide +kernel) (by decide +kernel) (by decide +kernel)
    (by decide +kernel)

/-- The roots have to be matched: when they are of different kinds, the script deletes the old root and says nothing
about the new one. -/
theorem C63_needs_matched_roots : ∃ (A B : Arena TData) (M : Matching), A.WF ∧ B.WF ∧
    M = computeMatching (DiffTree.ofArena Shape.node A 0) (DiffTree.ofArena Shape.node B 0) Config.diff ∧
    scriptOf Shape.node A B 0 0 M = [.delete 0] ∧
    ∀ r, ¬ Stands M.pairs (scriptOf Shape.node A B 0 0 M) 0 r := by
  obtain ⟨g, hg⟩ := buildTree_spec (.ofForest [ex "p" [] []]) (ofForest_valid _ (by decide +kernel)).leafy 3
  obtain ⟨g', hg'⟩ := buildTree_spec (.ofForest [ex "div" [] []]) (ofForest_valid _ (by decide +kernel)).leafy 3
  refine ⟨_, _, _, hg.wf, hg'.wf, rfl, by decide +kernel, ?_⟩
  have e1 : (computeMatching (oldTree Shape.node (.ofForest [ex "p" [] []]) 3)
      (oldTree Shape.node (.ofForest [ex "div" [] []]) 3) Config.diff).pairs = [] := by decide +kernel
  have e2 : scriptOf Shape.node (buildTree (.ofForest [ex "p" [] []]) 3) (buildTree (.ofForest [ex "div" [] []]) 3) 0 0
      (computeMatching (oldTree Shape.node (.ofForest [ex "p" [] []]) 3)
        (oldTree Shape.node (.ofForest [ex "div" [] []]) 3) Config.diff) = [.delete 0] := by decide +kernel
  intro r hr
  cases hr with
  | kept h => exact absurd (e1 ▸ h : _ ∈ ([] : List (Nat × Nat))) List.not_mem_nil
  | fresh h =>
    have h' := List.mem_singleton.1 (e2 ▸ h : _ ∈ [EditOp.delete 0])
    cases h'

end Hotmeal
