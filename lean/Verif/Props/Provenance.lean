import Verif.Lemmas.Provenance
import Verif.Props.Frame
import Verif.Props.RoundTrip

set_option autoImplicit false
set_option linter.unusedSectionVars false

/-!
# C54: patches carry only content of the new page

Nothing is assumed about hashes, opaque elements or the order of Moves.
-/

namespace Hotmeal

variable {H : Type} [DecidableEq H] {hashNode : HKind → Option Str → List H → H}
  {old new : Document}

theorem insertAllLoop_from {D : Arena NodeData} (hD : D.WF) {b : Nat} :
    ∀ (cs : List Nat) (pos : Nat) (ps : List Patch), (∀ c ∈ cs, D.Anc b c) →
      insertAllLoop D pos cs = .ok ps → ∀ P ∈ ps, P.From D b := by
  intro cs
  induction cs with
  | nil => intro pos ps _ h; cases h; intro P hP; cases hP
  | cons c cs ih =>
    intro pos ps hcs h
    obtain ⟨p, h1, h⟩ := res_bind h
    obtain ⟨qs, h2, h⟩ := res_bind h
    cases h
    intro P hP
    rcases List.mem_cons.1 hP with rfl | hP
    · unfold createInsertPatch at h1
      split at h1
      · next tag attrs ek =>
        cases h1
        exact ⟨c, hcs c (by simp), .element ek (copiesOf_filterMap fun m _ => insertContent_copy hD m)⟩
      · next ek => cases h1; exact ⟨c, hcs c (by simp), ek⟩
      · next ek => cases h1; exact ⟨c, hcs c (by simp), ek⟩
      · cases h1
    · exact ih _ _ (fun c hc => hcs c (by simp [hc])) h2 P hP

/-- **C54.** Everything that the patches of `diff` write is found in the new page: an inserted element
is a copy of an element of the new page of which descendants may be left out, inserted and
updated texts are texts of the new page, an attribute update lists the attributes of an element of the
new page in order with their values there, and the HTML for an opaque element is the inner HTML of an
element of the new page. The patches that set or remove a single attribute are not generated. -/
theorem C54_content_comes_from_the_new_page (hold : old.Sound) (hnew : new.Sound) {ps : List Patch}
    (hd : diff hashNode old new = .ok ps) : ∀ P ∈ ps, P.From new.arena (new.body.getD new.root) := by
  have hw := hnew.arena.wf
  unfold diff at hd
  cases ho : old.body with
  | none =>
    rw [ho] at hd
    cases hn : new.body with
    | none => rw [hn] at hd; cases hd; intro P hP; cases hP
    | some nb =>
      rw [hn] at hd
      intro P hP
      exact insertAllLoop_from hw _ _ _ (fun c hc => .step ((hw.mem_iff _ _).1 hc) .refl) hd P hP
  | some ob =>
    rw [ho] at hd
    cases hn : new.body with
    | none =>
      rw [hn] at hd
      cases hd
      intro P hP
      obtain ⟨i, _, rfl⟩ := List.mem_map.1 hP
      trivial
    | some nb =>
      rw [hn] at hd
      simp only at hd
      split at hd
      · cases hd
      · next hdoc =>
        have hdoc' : ∀ n, new.arena.Anc nb n → (new.arena.data n).kind ≠ .document := by
          intro n hn e
          refine hdoc ?_
          rw [List.any_eq_true]
          exact ⟨n, (hw.mem_descendants _ _).2 hn, by simpa using e⟩
        obtain ⟨qs, h1, hd⟩ := res_bind hd
        obtain ⟨rs, h2, hd⟩ := res_bind hd
        cases hd
        obtain ⟨g, hb⟩ := buildTree_spec old hold.arena.leafy ob
        have hBw := Built.diffable_wf hw
        have hpairs := (diffMatching_pairs (hashNode := hashNode) hb.wf hBw (ra := 0) (rb := nb)).2
        intro P hP
        show P.From new.arena nb
        rcases List.mem_append.1 hP with hP | hP
        · unfold convertOps at h1
          obtain ⟨S, _, h1⟩ := res_bind h1
          obtain ⟨v, h3, h1⟩ := res_bind h1
          cases h1
          exact convertLoop_from hw hBw hdoc' _
            (script_from hw hBw fun a b hab => anc_of_diffable (hpairs a b hab).2) h3 P hP
        · unfold opaquePatches at h2
          split at h2
          · cases h2; cases hP
          · obtain ⟨S, _, h2⟩ := res_bind h2
            cases h2
            obtain ⟨c, hc, rfl⟩ := List.mem_map.1 hP
            obtain ⟨p, hp, e⟩ := List.mem_filterMap.1 hc
            split at e
            · cases e
            · split at e
              · cases e
              · cases e
                exact ⟨p.2, anc_of_diffable (hpairs p.1 p.2 hp).2, rfl⟩

/-- A page with a paragraph. -/
def prov1 : List Html :=
  [ex "p" [("id", "1")] [.text "secret".toList, ex "b" [] [], .text "tail".toList]]
/-- The page with another text and a new opaque element. -/
def prov2 : List Html :=
  [ex "p" [("id", "2")] [.text "public".toList, ex "b" [] [], .text "tail".toList],
    ex "a" [("data-hotmeal-opaque", "")] [ex "b" [] [.text "x".toList]]]

/-- The documents are sound and the diff has patches that write: an element with its content, a text and attributes. -/
example : (Document.ofForest prov1).Sound ∧ (Document.ofForest prov2).Sound ∧
    (match diff Shape.node (.ofForest prov1) (.ofForest prov2) with
      | .ok ps => ps.any (fun | .insertElement _ _ _ (_ :: _) _ => true | _ => false) &&
          ps.any (fun | .setText _ _ => true | _ => false) &&
          ps.any (fun | .updateProps _ _ => true | _ => false)
      | .error _ => false) = true :=
  ⟨ofForest_sound _ (by decide +kernel), ofForest_sound _ (by decide +kernel), by decide +kernel⟩

end Hotmeal
