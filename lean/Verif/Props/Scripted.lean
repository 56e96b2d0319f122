import Verif.Lemmas.LocalityBrowser
import Verif.Props.Block
import Verif.Props.Rewriting

set_option autoImplicit false
set_option linter.unusedSectionVars false

/-!
# C74: a page in which a script has changed some blocks is still updated

A script of the page (or an extension of the browser) may fill an element that is empty in the HTML of the server.
The server knows nothing of this: its patches are made for the HTML it has sent.
-/

namespace Hotmeal

/-- `t` and `u` are the same element with the same number of children, and the children whose index is not in `K`
are equal. -/
def Html.SameExcept (K : Nat → Prop) (t u : Html) : Prop :=
  ∃ tag attrs cs ds, t = .element tag attrs cs ∧ u = .element tag attrs ds ∧ cs.length = ds.length ∧
    ∀ i, ¬ K i → cs[i]? = ds[i]?

variable {H : Type} [DecidableEq H] {hashNode : HKind → Option Str → List H → H}
  {old new : Document} {ob nb : Nat}

/-- The page after the patches: `t` is what the page would be without the script, and `u` what it would become. -/
theorem Comparable.scripted {N : QualName → Prop} (dom : WebDom) (h : Comparable old new ob nb)
    (hc : NoCollision hashNode (buildTree old ob) (diffable new) nb) (ho : old.Clear ob) (hn : new.Clear nb)
    (hf : NoMoveBelowSelf hashNode old new ob nb ∨ NoInversion hashNode old new ob nb)
    (hN : PlainNames N) (hno : old.NamesIn N ob) (hnn : new.NamesIn N nb)
    (hk : new.AllIn dom.KeepsTag dom.KeepsName nb)
    {K : Nat → Prop} (hK : ∀ k, K k → ∃ x y, SameBlock old new ob nb k x y)
    {E : Arena NodeData} {eb : Nat} (hE : E.WF) (hl : E.Lower) (heb : eb < E.next)
    {t : Html} (hsame : t.unq = (old.arena.tree ob).unq) (hx : t.SameExcept K (E.tree eb)) :
    ∃ ps E', ∃ u : Html, diff hashNode old new = .ok ps ∧ dom.applyPatches eb E ps = .ok E' ∧
      u.inner = new.toBodyHtml ∧ (∃ attrs cs, u.unq = (Html.element "body".toList attrs cs).unq ∧
        Html.pruneL cs = Html.pruneL new.bodyForest) ∧
      u.SameExcept K (E'.tree eb) ∧ (∀ k, K k → ∃ x, t.kids[k]? = some x ∧ u.kids[k]? = some x) ∧ E'.WF ∧
      KeepsBlocks E eb K E' := by
  have hof := opaqueFixed_of_clear (hashNode := hashNode) h ho hn
  obtain ⟨ps, τ, u, e, hneu, e1, e2, e3, e6⟩ :=
    h.rewriting_page (parsedContent fun _ => Document.new) hc hof hf hN hno hnn hsame
  obtain ⟨ps', σ, e', e1', _, _, _⟩ := h.rewriting hc hof hf parsed_new_sound
  rw [e] at e'; cases e'
  obtain ⟨ps', e', hb⟩ := C58_unchanged_block_is_not_touched_partial (fun _ => Document.new) h hc ho hn hf
  rw [e] at e'; cases e'
  obtain ⟨tag, attrs, cs, ds, rfl, ed, hlen, hrest⟩ := hx
  have hroot : (Store.init (old.arena.tree ob)).Rooted := by
    cases eo : old.arena.tree ob with
    | element tag' attrs' cs' => exact ⟨tag', attrs', cs', rfl⟩
    | _ => rw [eo] at hsame; simp [Html.unq] at hsame
  have hnr := Dialect.Neutral.noRootText (d := Dialect.library (parsedContent fun _ => Document.new)) rfl hroot hneu e1'
  have hin : ∀ k, K k → k < cs.length := by
    intro k hk
    obtain ⟨x, y, hs⟩ := hK k hk
    have h1 := (List.getElem?_eq_some_iff.1 hs.kidOld).1
    have h2 := hsame
    rw [h.old.sound.arena.wf.tree_eq] at h2
    cases eo : (old.arena.data ob).kind with
    | element tag' attrs' =>
      rw [eo] at h2
      simp only [Html.ofKind, Html.unq, Html.element.injEq, Html.unqL_eq] at h2
      have h3 := congrArg List.length h2.2.2
      simp only [List.length_map, Arena.forest] at h3
      omega
    | _ => rw [eo] at h2; simp [Html.ofKind, Html.unq] at h2
  have hbut : Store.But K (fun k => cs.getD k .document) (fun k => ds.getD k .document)
      (Store.init (.element tag attrs cs)) (Store.init (E.tree eb)) := by
    refine ⟨fun s hs => by simp [Store.init, hs], tag, attrs, cs, ds, rfl, by rw [ed]; rfl, hlen, hrest, ?_⟩
    intro k hk
    have h1 := hin k hk
    exact ⟨by simp [h1], by simp [hlen ▸ h1]⟩
  have hav : ∀ P ∈ ps, P.Avoids K ∧ P.NoRootText := fun P hP => ⟨fun q hq k hk => by
    obtain ⟨x, y, hs⟩ := hK k hk
    exact (hb k x y hs).1 P hP q hq, hnr P hP⟩
  obtain ⟨τ', g1, g2⟩ := hbut.run rfl ps hav e1
  have hkeep : ∀ P ∈ ps, dom.Keeps P := fun P hP => C31_names_from_new dom h hc hof.agree hk e P hP
  obtain ⟨E', f1, f2, f5, _⟩ := C47_patches_rewrite_the_page dom hE hl heb hkeep g1
  obtain ⟨tag1, attrs1, cs1, ds1, z1, z2, z3, z4, z5⟩ := g2.zero
  rw [e2] at z1
  rw [f2] at z2
  cases z1
  have hds : ds = (E.children eb).map E.tree := (Rep.isElement_of_tree hE ed).2
  have hkb : KeepsBlocks E eb K E' := by
    rw [WebDom.applyPatches_eq hl hkeep] at f1
    simp only [Wasm.applyPatches] at f1
    obtain ⟨⟨A', slots'⟩, f3, f4⟩ := res_bind f1
    cases f4
    refine KeepsBlocks.run hE (fence_of hE heb) ps (rep_init hE heb (slots := Wasm.view eb (fun _ => none))
      (by simp [Wasm.view])) ⟨fun k hk => ?_, fun _ _ => rfl, fun _ _ => ⟨rfl, rfl⟩⟩ hav g1 f3
    have h1 := hin k hk
    rw [hlen, hds, List.length_map] at h1
    exact ⟨_, List.getElem?_eq_getElem h1⟩
  refine ⟨ps, E', _, e, f1, e3, e6, ⟨tag1, attrs1, cs1, ds1, rfl, Option.some.inj z2, z3, z4⟩, ?_, f5, hkb⟩
  intro k hk
  refine ⟨cs.getD k .document, ?_, (z5 k hk).1⟩
  have h1 := hin k hk
  simp [Html.kids, h1]

/-- **C74**, partial. `K` are blocks (children of the body) that are equal in the old and the new version. The page
shows the old version, but the blocks `K` of the page may have any content. Then the patches of `diff old new` apply
to the page, and all the rest of the page shows the new version. The blocks `K` of the page stay as they are: the
same DOM nodes are at the same places, with the same children and the same data.
Missing: as for `C58_unchanged_block_is_not_touched_partial` (parts of the block do not occur elsewhere) and
`C31_browser_agrees_partial`. -/
theorem C74_scripted_blocks_survive_partial {N : QualName → Prop} (dom : WebDom) (h : Comparable old new ob nb)
    (hc : NoCollision hashNode (buildTree old ob) (diffable new) nb) (ho : old.Clear ob) (hn : new.Clear nb)
    (hf : NoMoveBelowSelf hashNode old new ob nb ∨ NoInversion hashNode old new ob nb)
    (hN : PlainNames N) (hno : old.NamesIn N ob) (hnn : new.NamesIn N nb)
    (hk : new.AllIn dom.KeepsTag dom.KeepsName nb)
    {K : Nat → Prop} (hK : ∀ k, K k → ∃ x y, SameBlock old new ob nb k x y)
    {E : Arena NodeData} {eb : Nat} (hE : E.WF) (hl : E.Lower) (heb : eb < E.next)
    {t : Html} (hsame : t.unq = (old.arena.tree ob).unq) (hx : t.SameExcept K (E.tree eb)) :
    ∃ ps E', ∃ u : Html, diff hashNode old new = .ok ps ∧ dom.applyPatches eb E ps = .ok E' ∧
      u.inner = new.toBodyHtml ∧ u.SameExcept K (E'.tree eb) ∧
      ∀ k m, K k → (E.children eb)[k]? = some m → (E'.children eb)[k]? = some m ∧
        ∀ n, E.Anc m n → E'.children n = E.children n ∧ E'.data n = E.data n := by
  obtain ⟨ps, E', u, e1, e2, e3, _, e4, _, _, e6⟩ := h.scripted dom hc ho hn hf hN hno hnn hk hK hE hl heb hsame hx
  refine ⟨ps, E', u, e1, e2, e3, e4, fun k m hk hm => ?_⟩
  exact ⟨by rw [e6.place k hk, hm], fun n hn => e6.nodes n ⟨k, m, hk, hm, hn⟩⟩

/-! ### Concrete cases -/

/-- The page of `news1` (see C58) in the browser, with a list that a script has filled with other items. -/
def scripted1 : List Html :=
  [ex "h1" [] [.text "News".toList],
    ex "ul" [("class", "b")] [ex "li" [] [.text "filled".toList], ex "div" [] [ex "li" [] [.text "two".toList]]],
    ex "p" [] [.text "old".toList]]

/-- The hypotheses of C74 on the page: the blocks `K` are the list, at index 1. (The hypotheses on the documents are
shown to hold beside C58.) -/
example : (Document.ofForest scripted1).arena.WF ∧ (Document.ofForest scripted1).arena.Lower ∧
    SameBlock (.ofForest news1) (.ofForest news2) 2 2 1 5 5 ∧
    ((Document.ofForest news1).arena.tree 2).SameExcept (· = 1) ((Document.ofForest scripted1).arena.tree 2) ∧
    (Document.ofForest news1).NamesIn bareName 2 ∧ (Document.ofForest news2).NamesIn bareName 2 ∧
    (Document.ofForest news2).AllIn WebDom.lenient.KeepsTag WebDom.lenient.KeepsName 2 := by
  have h1 := ofForest_valid news1 (by decide +kernel)
  have h2 := ofForest_valid news2 (by decide +kernel)
  have h3 := ofForest_valid scripted1 (by decide +kernel)
  refine ⟨h3.wf, lower_ofForest (by decide +kernel), sameBlockB_spec h1.wf h2.wf (by decide +kernel), ?_,
    namesIn_of_bareB h1.wf (by decide +kernel) (by decide +kernel),
    namesIn_of_bareB h2.wf (by decide +kernel) (by decide +kernel),
    allIn_of_keptB h2.wf (by decide +kernel) (by decide +kernel)⟩
  refine ⟨"body".toList, [], news1, scripted1, rfl, rfl, rfl, ?_⟩
  intro i hi
  match i, hi with
  | 0, _ => rfl
  | 2, _ => rfl
  | n + 3, _ => rfl

/-- The page of `lists1` (see C58) in the browser, in which a script has changed the first item of the first list. -/
def mine1 : List Html :=
  [ex "ul" [] [ex "li" [] [.text "mine".toList], ex "li" [] [.text "b".toList]],
    ex "ul" [] [ex "li" [] [.text "c".toList]]]

/-- **C74** is violated when a part of the block also occurs elsewhere. The first list is the same in both versions,
and a script has changed its first item. The patches undo the change, and what the script has written goes to the
second list, where the new version has another text. -/
theorem C74_violated : ((Document.ofForest lists1).arena.tree 2).SameExcept (· = 0)
      ((Document.ofForest mine1).arena.tree 2) ∧
    Arena.Alike Eq (Document.ofForest lists1).arena (Document.ofForest lists2).arena 3 3 ∧
    Comparable (.ofForest lists1) (.ofForest lists2) 2 2 ∧
    NoMoveBelowSelf Shape.node (.ofForest lists1) (.ofForest lists2) 2 2 ∧
    (match diff Shape.node (.ofForest lists1) (.ofForest lists2) with
      | .ok ps => match WebDom.lenient.applyPatches 2 (Document.ofForest mine1).arena ps with
        | .ok E => decide ((E.tree 2).inner =
            "<ul><li>a</li><li>b</li></ul><ul><li>c</li><li>mine</li></ul>".toList)
        | .error _ => false
      | .error _ => false) = true := by
  refine ⟨⟨"body".toList, [], lists1, mine1, rfl, rfl, rfl, ?_⟩, C58_violated.2.2.1, C58_violated.2.2.2.1,
    C58_violated.2.2.2.2.2.2.2.1, by decide +kernel⟩
  intro i hi
  match i, hi with
  | 1, _ => rfl
  | n + 2, _ => rfl

/-- One paragraph. -/
def short1 : List Html := [ex "p" [] [.text "a".toList]]
/-- Another block at the end. -/
def short2 : List Html := [ex "p" [] [.text "a".toList], ex "h1" [] [.text "b".toList]]
/-- The page of `short1`, to which an extension of the browser has added a toolbar. -/
def short1Toolbar : List Html := [ex "p" [] [.text "a".toList], ex "aside" [] [.text "tools".toList]]

/-- **C74** is violated for nodes that are added at the end of the body: a block that comes at the end of the new
version is not put before or after the added node, it replaces it. -/
theorem C74_violated_added : Comparable (.ofForest short1) (.ofForest short2) 2 2 ∧
    (Document.ofForest short1).Clear 2 ∧ (Document.ofForest short2).Clear 2 ∧
    NoMoveBelowSelf Shape.node (.ofForest short1) (.ofForest short2) 2 2 ∧
    (match diff Shape.node (.ofForest short1) (.ofForest short2) with
      | .ok ps => match WebDom.lenient.applyPatches 2 (Document.ofForest short1Toolbar).arena ps with
        | .ok E => decide ((E.tree 2).inner = "<p>a</p><h1>b</h1>".toList)
        | .error _ => false
      | .error _ => false) = true := by
  have h1 := ofForest_valid short1 (by decide +kernel)
  have h2 := ofForest_valid short2 (by decide +kernel)
  exact ⟨comparable_ofForest (by decide +kernel) (by decide +kernel), clear_of h1.wf (by decide +kernel),
    clear_of h2.wf (by decide +kernel), noMoveBelowSelf_of_movesSafe (by decide +kernel), by decide +kernel⟩

end Hotmeal
