import Verif.Props.AnyPatches
import Verif.Props.Reconnect
import Verif.Model.WasmKeep

set_option autoImplicit false
set_option linter.unusedSectionVars false

/-!
# C73: errors in the browser
-/

namespace Hotmeal

open Server

variable {H : Type} [DecidableEq H] {hashNode : HKind → Option Str → List H → H} {N : QualName → Prop}

theorem WebDom.applyKeep_spec (dom : WebDom) (root : Nat) : ∀ (ps : List Patch) (A : Arena NodeData) (s : Slots),
    (∀ A' s', dom.applyLoop root A s ps = .ok (A', s') → dom.applyKeep root A s ps = (A', none)) ∧
    ∀ e, dom.applyLoop root A s ps = .error e → (dom.applyKeep root A s ps).2 = some e := by
  intro ps
  induction ps with
  | nil =>
    intro A s
    exact ⟨fun A' s' e => by cases e; rfl, fun e h => by cases h⟩
  | cons p ps ih =>
    intro A s
    simp only [applyLoop, WebDom.applyKeep]
    cases h : dom.applyPatch root A s p with
    | ok r =>
      obtain ⟨A1, s1⟩ := r
      simpa only [bind, Except.bind] using ih A1 s1
    | error e =>
      constructor
      · intro A' s' h'
        cases h'
      · intro e' h'
        cases h'
        rfl

/-- **C73**: an error is reported exactly when a patch fails, and it is that of the first failing patch. Without one,
the page is the patched one. -/
theorem C73_errors_are_reported (dom : WebDom) (root : Nat) (A : Arena NodeData) (ps : List Patch) :
    (∀ A', dom.applyPatches root A ps = .ok A' ↔ dom.applyPatchesKeep root A ps = (A', none)) ∧
    ∀ e, dom.applyPatches root A ps = .error e ↔ (dom.applyPatchesKeep root A ps).2 = some e := by
  obtain ⟨h1, h2⟩ := dom.applyKeep_spec root ps A (fun _ => none)
  unfold WebDom.applyPatches WebDom.applyPatchesKeep
  cases h : dom.applyLoop root A (fun _ => none) ps with
  | ok r =>
    obtain ⟨A1, s1⟩ := r
    rw [h1 A1 s1 h]
    simp [bind, Except.bind]
  | error e =>
    have := h2 e h
    generalize dom.applyKeep root A (fun _ => none) ps = k at this
    obtain ⟨k1, k2⟩ := k
    simp only at this
    subst this
    simp [bind, Except.bind]

/-- The patches before the failing one are applied, those after it are not. -/
theorem WebDom.applyKeep_append (dom : WebDom) (root : Nat) (p : Patch) (qs : List Patch) {e : Err} :
    ∀ (ps : List Patch) {A A' : Arena NodeData} {s s' : Slots}, dom.applyLoop root A s ps = .ok (A', s') →
    dom.applyPatch root A' s' p = .error e →
    dom.applyKeep root A s (ps ++ p :: qs) = (dom.errorPage root A' s' p, some e) := by
  intro ps
  induction ps with
  | nil =>
    intro A A' s s' h hp
    cases h
    simp only [List.nil_append, WebDom.applyKeep, hp]
  | cons q ps ih =>
    intro A A' s s' h hp
    obtain ⟨⟨A1, s1⟩, h1, h⟩ := res_bind h
    simp only [List.cons_append, WebDom.applyKeep, h1]
    exact ih h hp

/-- **C73**, except for `UpdateProps` and `Move`: when a patch fails, the page is what the patches before it have made
of it. Missing: the two exceptions, for which it is false (`C73_violated_attributes`, `C73_violated_move`). -/
theorem C73_failed_patch_changes_nothing_partial (dom : WebDom) (root : Nat) (A A' : Arena NodeData) (s' : Slots)
    (ps qs : List Patch) (p : Patch) (e : Err) (hm : ∀ f t s, p ≠ .move f t s) (hu : ∀ q cs, p ≠ .updateProps q cs)
    (h : dom.applyLoop root A (fun _ => none) ps = .ok (A', s')) (hp : dom.applyPatch root A' s' p = .error e) :
    dom.applyPatchesKeep root A (ps ++ p :: qs) = (A', some e) := by
  unfold WebDom.applyPatchesKeep
  rw [dom.applyKeep_append root p qs ps h hp]
  cases p with
  | move f t s => exact absurd rfl (hm f t s)
  | updateProps q cs => exact absurd rfl (hu q cs)
  | _ => rfl

theorem Wasm.insertAtPosition_fresh {A : Arena NodeData} (hA : A.WF) (s : Slots) {p n : Nat} (pos : Nat)
    (slot : Option Nat) (hp : p < A.next) (hn : n < A.next) (ha : ¬ A.Anc n p) :
    ∃ r, Wasm.insertAtPosition A s p n pos slot = .ok r := by
  have hanc : ∀ {B : Arena NodeData}, B.WF → ¬ B.Anc n p → B.isAncestorOrSelf n B.next p = false := by
    intro B hB h
    rw [Bool.eq_false_iff]
    exact fun hc => h ((hB.isAncestorOrSelf_iff _ _).1 hc)
  unfold Wasm.insertAtPosition
  split
  · next occ hocc =>
    have hm := (hA.mem_iff _ _).1 (List.mem_of_getElem? hocc)
    unfold Wasm.replaceChild
    rw [hanc hA ha]
    simp only [Bool.false_eq_true, if_false]
    split
    · exact ⟨_, rfl⟩
    · next hne =>
      have : ∃ B, A.insertBefore occ n = .ok B := by
        unfold Arena.insertBefore
        rw [if_neg (fun h => hne h.symm)]
        have : (A.detach n).parent occ = some p := by
          rw [Arena.detach_parent, if_neg (fun h => hne h.symm), hm]
        simp only [this]
        rw [if_neg (fun h => ha (by rw [h]; exact .refl))]
        exact ⟨_, rfl⟩
      obtain ⟨B, hB⟩ := this
      simp only [hB, bind, Except.bind]
      exact ⟨_, rfl⟩
  · have key : ∀ (k : Nat) (B : Arena NodeData), B.WF → p < B.next → n < B.next → ¬ B.Anc n p →
        (fillGaps B p k).WF ∧ ¬ (fillGaps B p k).Anc n p := by
      intro k
      induction k with
      | zero => intro B h1 _ _ h4; exact ⟨h1, h4⟩
      | succ k ih =>
        intro B h1 h2 h3 h4
        refine ih _ (h1.addChild h2 _) ?_ ?_ ?_
        · rw [Arena.addChild_next]; omega
        · rw [Arena.addChild_next]; omega
        · intro hc
          have : ∀ m, (B.addChild p Document.emptyText).1.Anc n m → m < B.next → B.Anc n m := by
            intro m hm
            induction hm with
            | refl => intro _; exact .refl
            | @step m q hq _ ih =>
              intro hlt
              rw [h1.addChild_parent] at hq
              split at hq
              · omega
              · exact .step hq (ih (h1.lt_of_parent _ _ hq).2)
          exact h4 (this p hc h2)
    obtain ⟨h1, h2⟩ := key (pos - (A.children p).length) A hA hp hn ha
    simp only [Wasm.appendChild, hanc h1 h2, bind, Except.bind, Bool.false_eq_true, if_false]
    exact ⟨_, rfl⟩

theorem beyond_fresh {A : Arena NodeData} (hA : A.WF) {m : Nat} (hm : m < A.next) : Beyond A A.next m := by
  refine ⟨hm, fun ha => ?_⟩
  have : ∀ m, A.Anc A.next m → A.next ≤ m := by
    intro m hm
    induction hm with
    | refl => exact Nat.le_refl _
    | @step m q hq _ ih => have := (hA.lt_of_parent _ _ hq).2; omega
  have := this m ha
  omega

theorem not_anc_fresh {A A' : Arena NodeData} (hA : A.WF) (h : Safe A A.next A') {n p : Nat} (hn : A.next ≤ n)
    (hp : p < A.next) : ¬ A'.Anc n p := by
  intro ha
  have : ∀ m, A'.Anc n m → m < A.next → n < A.next := by
    intro m hm
    induction hm with
    | refl => exact id
    | @step m q hq _ ih =>
      intro hlt
      rw [h.fenced.parent m (beyond_fresh hA hlt)] at hq
      exact ih (hA.lt_of_parent _ _ hq).2
  have := this p ha hp
  omega

/-- **C73**: an insert that fails does so before it has changed the page: its target is not found, or its content
cannot be made. -/
theorem C73_inserts_fail_first (dom : WebDom) {root : Nat} {A : Arena NodeData} (hA : A.WF) (s : Slots) (e : Err)
    (hroot : root < A.next) (hs : ∀ k n, s k = some n → n < A.next) :
    (∀ q tag attrs cs slot, dom.applyPatch root A s (.insertElement q tag attrs cs slot) = .error e →
      Wasm.insertParent root A s q = .error e ∨
      dom.createInsertContent A (.element tag attrs cs) = .error e) ∧
    (∀ q t slot, dom.applyPatch root A s (.insertText q t slot) = .error e →
      Wasm.insertParent root A s q = .error e) ∧
    (∀ q t slot, dom.applyPatch root A s (.insertComment q t slot) = .error e →
      Wasm.insertParent root A s q = .error e) := by
  have h0 : Safe A A.next A := ⟨hA, .refl hA⟩
  have hnav : ∀ (q : Path) (r n : Nat), r < A.next → navLoop A r q = .ok n → n < A.next := by
    intro q
    induction q with
    | nil => intro r n hr h; cases h; exact hr
    | cons i q ih =>
      intro r n hr h
      unfold navLoop at h
      split at h
      · cases h
      · next c hc =>
        exact ih c n (hA.lt_of_parent _ _ ((hA.mem_iff _ _).1 (List.mem_of_getElem? hc))).1 h
  have hins : ∀ {q : Path} {p pos : Nat}, Wasm.insertParent root A s q = .ok (p, pos) → p < A.next := by
    intro q p pos h
    unfold Wasm.insertParent at h
    split at h
    · cases h
    · split at h
      · cases h
      · obtain ⟨p1, h1, h⟩ := res_bind h
        obtain ⟨p2, h2, h⟩ := res_bind h
        cases h
        unfold Wasm.asElement at h2
        split at h2
        · cases h2
          unfold Wasm.findNode navigate at h1
          split at h1
          · cases h1
          · split at h1
            · cases h1
            · next r hr =>
              refine hnav _ r _ ?_ h1
              unfold Wasm.view at hr
              rw [Arena.upd_apply] at hr
              split at hr
              · cases hr; exact hroot
              · exact hs _ _ hr
        · cases h2
  have hput : ∀ {A' : Arena NodeData} {n p pos : Nat} {slot : Option Nat}, Safe A A.next A' → A.next ≤ n →
      n < A'.next → p < A.next → Wasm.insertAtPosition A' s p n pos slot ≠ .error e := by
    intro A' n p pos slot h1 h2 h3 h4 h5
    obtain ⟨r, hr⟩ := Wasm.insertAtPosition_fresh h1.wf s pos slot (p := p) (n := n)
      (Nat.lt_of_lt_of_le h4 h1.fenced.le) h3 (not_anc_fresh hA h1 h2 h4)
    rw [hr] at h5
    cases h5
  refine ⟨fun q tag attrs cs slot h => ?_, fun q t slot h => ?_, fun q t slot h => ?_⟩
  · simp only [WebDom.applyPatch] at h
    cases h1 : Wasm.insertParent root A s q with
    | error e1 => rw [h1] at h; cases h; exact .inl rfl
    | ok r =>
      obtain ⟨p, pos⟩ := r
      rw [h1] at h
      cases h2 : dom.createInsertContent A (.element tag attrs cs) with
      | error e1 => simp only [bind, Except.bind, h2] at h; cases h; exact .inr rfl
      | ok r =>
        obtain ⟨A', n⟩ := r
        simp only [bind, Except.bind, h2] at h
        obtain ⟨g1, g2, g3⟩ := Safe.createInsertContent dom hA _ h0 h2
        refine absurd h (hput g1 ?_ g3.1 (hins h1))
        exact Nat.le_of_not_lt fun hlt => g3.2 (beyond_fresh hA hlt)
  · simp only [WebDom.applyPatch, Wasm.applyPatch] at h
    cases h1 : Wasm.insertParent root A s q with
    | error e1 => rw [h1] at h; cases h; rfl
    | ok r =>
      obtain ⟨p, pos⟩ := r
      rw [h1] at h
      exact absurd h (hput (h0.newNode _).1 (Nat.le_refl _) (by simp) (hins h1))
  · simp only [WebDom.applyPatch, Wasm.applyPatch] at h
    cases h1 : Wasm.insertParent root A s q with
    | error e1 => rw [h1] at h; cases h; rfl
    | ok r =>
      obtain ⟨p, pos⟩ := r
      rw [h1] at h
      exact absurd h (hput (h0.newNode _).1 (Nat.le_refl _) (by simp) (hins h1))

/-- The case of the theorems above: the first patch is applied, the second has no target, the third is not applied. -/
example : (let A := (Document.ofForest [ex "p" [] [], ex "q" [] []]).arena
    let r := WebDom.lenient.applyPatchesKeep 2 A
      [.insertText [0, 0] ['x'] none, .insertText [0, 0, 1] ['y'] none, .remove [0, 1]]
    decide (r.2 = some .notAnElement ∧ (r.1.tree 2).inner = "x<q></q>".toList)) = true := by decide +kernel

/-! ### The page stays a tree -/

namespace Safe

variable {D0 A : Arena NodeData} {b : Nat}

theorem errorPage (dom : WebDom) (hD : D0.WF) (h : Safe D0 b A) (hb : Within D0 b A b) {s : Slots}
    (hs : SlotsWithin D0 b A s) (P : Patch) : Safe D0 b (dom.errorPage b A s P) := by
  cases P with
  | updateProps q changes =>
    unfold WebDom.errorPage
    simp only
    split
    · exact h
    · next n hn =>
      have hn := h.findNode hb hs hn
      have key : ∀ {A2 : Arena NodeData}, Safe D0 b A2 → Safe D0 b (match A2.data n with
          | ⟨.element tag attrs, ns⟩ =>
            A2.setData n ⟨.element tag (dom.updateLoopKeep ns attrs (WebDom.clearAttrs ns attrs) changes), ns⟩
          | _ => A2) := by
        intro A2 h2
        split
        · exact h2.setData hn.2 _
        · exact h2
      refine key ?_
      split
      · exact (h.setTextContent hD hn _).1
      · exact h
  | move q to slot =>
    have hrest : ∀ {A2 : Arena NodeData} {s2 : Slots}, Safe D0 b A2 → A.next ≤ A2.next → SlotsWithin D0 b A2 s2 →
        Safe D0 b (match Wasm.insertParent b A2 s2 to with
          | .error _ => A2
          | .ok (p, pos) => match (A2.children p)[pos]? with
            | some _ => A2
            | none => Hotmeal.fillGaps A2 p (pos - (A2.children p).length)) := by
      intro A2 s2 g1 g2 g3
      split
      · exact g1
      · next p pos hp =>
        split
        · exact g1
        · exact (Safe.fillGaps hD _ g1 (g1.insertParent ⟨Nat.lt_of_lt_of_le hb.1 g2, hb.2⟩ g3 hp)).1
    unfold WebDom.errorPage
    simp only
    split
    · exact h
    · next x A2 s2 ht =>
      split at ht
      · split at ht
        · cases ht
        · cases ht; exact hrest h (Nat.le_refl _) (slots_none hs _)
      · obtain ⟨n, h1, ht⟩ := res_bind ht
        obtain ⟨A3, h2, ht⟩ := res_bind ht
        cases ht
        obtain ⟨g1, g2⟩ := h.replaceByEmpty hD (h.findNode hb hs h1) h2
        exact hrest g1 g2 (Fenced.slotsWithin_mono hs g2)
  | _ => exact h

theorem applyKeep (dom : WebDom) (hD : D0.WF) : ∀ (ps : List Patch) {A : Arena NodeData}, Safe D0 b A →
    Within D0 b A b → ∀ {s : Slots}, SlotsWithin D0 b A s → Safe D0 b (dom.applyKeep b A s ps).1
  | [], _, h, _, _, _ => h
  | P :: ps, A, h, hb, s, hs => by
    unfold WebDom.applyKeep
    split
    · next A2 s2 h1 =>
      obtain ⟨g1, g2, g3⟩ := h.applyPatch dom hD hb hs h1
      exact applyKeep dom hD ps g1 ⟨Nat.lt_of_lt_of_le hb.1 g2, hb.2⟩ g3
    · exact h.errorPage dom hD hb hs P

end Safe

/-- **C73**: whatever patches the client applies to the element `eb` of a page, with or without an error, the page
stays a well-formed tree, the nodes outside `eb` keep their parents and data, and, but for the parent of `eb`, their
children. -/
theorem C73_page_stays_a_tree (dom : WebDom) {E : Arena NodeData} (hE : E.WF) {eb : Nat} (heb : eb < E.next)
    (ps : List Patch) :
    (dom.applyPatchesKeep eb E ps).1.WF ∧ ∀ n, n < E.next → ¬ E.Anc eb n →
      (dom.applyPatchesKeep eb E ps).1.parent n = E.parent n ∧ (dom.applyPatchesKeep eb E ps).1.data n = E.data n ∧
      (E.parent eb ≠ some n → (dom.applyPatchesKeep eb E ps).1.children n = E.children n) := by
  have h := Safe.applyKeep (b := eb) dom hE ps ⟨hE, .refl hE⟩ ⟨heb, fun h => h.2 .refl⟩
    (s := fun _ => none) (fun k n hk => by cases hk)
  exact ⟨h.wf, fun n hn hb => ⟨h.fenced.parent n ⟨hn, hb⟩, h.fenced.data n ⟨hn, hb⟩,
    h.fenced.kids n ⟨hn, hb⟩⟩⟩

/-! ### What is lost -/

/-- **C73** is violated for `UpdateProps`: if the first name in the list is one that `setAttribute` rejects, the element
ends up without attributes, whatever it had and whatever it was to get. -/
theorem C73_violated_attributes (dom : WebDom) (root : Nat) (A : Arena NodeData) (q : Path) (n : Nat) (tag : Str)
    (attrs : Attrs) (ns : Ns) (k : QualName) (v : Option Str) (cs : List PropChange) (qs : List Patch)
    (hn : Wasm.findNode root A (fun _ => none) q = .ok n) (hd : A.data n = ⟨.element tag attrs, ns⟩)
    (hlow : ns = .html → attrs.Lower) (hnd : (attrs.written.map Prod.fst).Nodup)
    (hk : dom.attrOk (serName k) = false) (ht : ∀ c ∈ cs, c.name ≠ .text) :
    ∃ A', dom.applyPatchesKeep root A (.updateProps q (⟨.attr k, v⟩ :: cs) :: qs) = (A', some .invalidName) ∧
      A'.data n = ⟨.element tag [], ns⟩ := by
  have hfind : (⟨.attr k, v⟩ :: cs : List PropChange).find? (fun c => decide (c.name = .text)) = none := by
    rw [List.find?_eq_none]
    intro c hc
    simp only [List.mem_cons] at hc
    rcases hc with rfl | hc
    · simp
    · simpa using ht c hc
  have hset : ∀ v acc, dom.setAttribute ns (serName k) v acc = .error .invalidName := by
    intro v acc
    unfold WebDom.setAttribute
    rw [hk]
    simp
  refine ⟨A.setData n ⟨.element tag [], ns⟩, ?_, by simp [Arena.setData]⟩
  have hclear : WebDom.clearAttrs ns attrs = [] := by
    rw [WebDom.clearAttrs_eq ns hlow, Wasm.clearAttrs_eq hnd]
  have h1 : dom.applyPatch root A (fun _ => none) (.updateProps q (⟨.attr k, v⟩ :: cs)) = .error .invalidName := by
    simp only [WebDom.applyPatch, hn, hfind, bind, Except.bind, hd, WebDom.updateAttrs, List.foldlM_cons, hset]
  unfold WebDom.applyPatchesKeep WebDom.applyKeep
  rw [h1]
  simp only [WebDom.errorPage, hn, hfind, hd, WebDom.updateLoopKeep, hset, hclear]

theorem WebDom.updateLoopKeep_append (dom : WebDom) (ns : Ns) (old : Attrs) (k : QualName) (v : Option Str)
    (post : List PropChange) (hk : dom.attrOk (serName k) = false) : ∀ (pre : List PropChange) (acc acc' : Attrs),
    pre.foldlM (fun acc c => match c.name with
      | .text => .ok acc
      | .attr q => dom.setAttribute ns (serName q) (match c.value with
        | some v => v
        | none => (Wasm.existing old (serName q)).getD []) acc) acc = (.ok acc' : Res Attrs) →
    dom.updateLoopKeep ns old acc (pre ++ ⟨.attr k, v⟩ :: post) = acc' ∧
    (pre ++ ⟨.attr k, v⟩ :: post).foldlM (fun acc c => match c.name with
      | .text => .ok acc
      | .attr q => dom.setAttribute ns (serName q) (match c.value with
        | some v => v
        | none => (Wasm.existing old (serName q)).getD []) acc) acc = (.error .invalidName : Res Attrs)
  | [], acc, acc', e => by
    cases e
    constructor
    · simp [WebDom.updateLoopKeep, WebDom.setAttribute, hk]
    · simp [WebDom.setAttribute, hk, List.foldlM_cons, bind, Except.bind]
  | c :: pre, acc, acc', e => by
    obtain ⟨nm, w⟩ := c
    rw [List.foldlM_cons] at e
    obtain ⟨a1, e1, e2⟩ := res_bind e
    obtain ⟨h1, h2⟩ := updateLoopKeep_append dom ns old k v post hk pre a1 acc' e2
    rw [List.cons_append, List.foldlM_cons]
    simp only at e1
    constructor
    · cases nm with
      | text => cases e1; exact h1
      | attr q =>
        cases w <;>
        · simp only at e1
          simp only [WebDom.updateLoopKeep, e1]
          exact h1
    · simp only [e1, bind, Except.bind]
      exact h2

/-- **C73.** When `setAttribute` rejects a name in an `UpdateProps` patch, then the page is as if the list of
attributes had ended before that name: the attributes before it are set, and it and those after it are gone. -/
theorem C73_attributes_up_to_the_rejected (dom : WebDom) (root : Nat) (A A' B : Arena NodeData) (s s' : Slots)
    (ps qs : List Patch) (q : Path) (k : QualName) (v : Option Str) (pre post : List PropChange)
    (h : dom.applyLoop root A (fun _ => none) ps = .ok (A', s)) {n : Nat} {tag : Str} {attrs : Attrs} {ns : Ns}
    (hn : Wasm.findNode root A' s q = .ok n) (hd : A'.data n = ⟨.element tag attrs, ns⟩)
    (hk : dom.attrOk (serName k) = false) (ht : ∀ c ∈ pre ++ post, c.name ≠ .text)
    (hb : dom.applyPatch root A' s (.updateProps q pre) = .ok (B, s')) :
    dom.applyPatchesKeep root A (ps ++ .updateProps q (pre ++ ⟨.attr k, v⟩ :: post) :: qs) =
      (B, some .invalidName) := by
  have hfp : pre.find? (fun c : PropChange => decide (c.name = .text)) = none := by
    rw [List.find?_eq_none]
    intro c hc
    simpa using ht c (List.mem_append_left _ hc)
  have hfind : (pre ++ ⟨.attr k, v⟩ :: post).find? (fun c : PropChange => decide (c.name = .text)) = none := by
    rw [List.find?_append, hfp, Option.none_or, List.find?_eq_none]
    intro c hc
    rcases List.mem_cons.1 hc with rfl | hc
    · simp
    · simpa using ht c (List.mem_append_right _ hc)
  unfold WebDom.applyPatchesKeep
  simp only [WebDom.applyPatch, hn, bind, Except.bind, hfp, hd] at hb
  cases ha : dom.updateAttrs ns attrs pre with
  | error e => rw [ha] at hb; cases hb
  | ok a =>
    rw [ha] at hb
    cases hb
    obtain ⟨h1, h2⟩ := dom.updateLoopKeep_append ns attrs k v post hk pre _ _ ha
    have h3 : dom.updateAttrs ns attrs (pre ++ ⟨.attr k, v⟩ :: post) = .error .invalidName := h2
    rw [dom.applyKeep_append root _ qs ps h (e := .invalidName)]
    · simp only [WebDom.errorPage, hn, hfind, hd, h1]
    · simp only [WebDom.applyPatch, hn, bind, Except.bind, hfind, hd, h3]

/-- **C73** is violated for `Move`: a node whose target is not found is gone from the page. -/
theorem C73_violated_move : ∃ (cs : List Html) (ps : List Patch),
    (let r := WebDom.lenient.applyPatchesKeep 2 (Document.ofForest cs).arena ps
     decide (r.2 = some (.slotNotFound 7) ∧ (r.1.tree 2).inner = "<q></q>".toList ∧
       (Document.ofForest cs).toBodyHtml = "<p></p><q></q>".toList)) = true :=
  ⟨[ex "p" [] [], ex "q" [] []], [.move [0, 0] [7, 0] none], by decide +kernel⟩

/-! ### The session goes on -/

theorem Server.keepStep_eq {E : Type} (dom : WebDom) (diffHtml : Str → Str → Except E (List Patch))
    (load : Str → Page) (route : Str) (S : Server) (p : Page) (c : Call) {r : Server × Page}
    (h : S.liveStep dom diffHtml load route p c = .ok r) : S.keepStep dom diffHtml load route p c = r := by
  unfold Server.liveStep at h
  unfold Server.keepStep
  generalize S.run diffHtml c = x at h ⊢
  obtain ⟨S1, ev⟩ := x
  simp only at h ⊢
  split at h
  · next hr =>
    rw [if_pos hr]
    obtain ⟨p1, h1, h⟩ := res_bind h
    cases h
    cases ev with
    | none => cases h1; rfl
    | some e =>
      cases e with
      | reload => cases h1; rfl
      | headChanged _ => cases h1; rfl
      | patches _ ps =>
        obtain ⟨A, h2, h1⟩ := res_bind h1
        cases h1
        simp only [Page.handleKeep, ((C73_errors_are_reported dom p.body p.arena (ps.map Patch.wire)).1 A).1 h2]
  · next hr => rw [if_neg hr]; cases h; rfl

theorem Server.keepRun_eq {E : Type} (dom : WebDom) (diffHtml : Str → Str → Except E (List Patch))
    (load : Str → Page) (route : Str) : ∀ (cs : List (Bool × Call)) (S : Server) (p : Page) {r : Server × Page},
    S.connRun dom diffHtml load route p cs = .ok r → S.keepRun dom diffHtml load route p cs = r := by
  intro cs
  induction cs with
  | nil => intro S p r h; cases h; rfl
  | cons x cs ih =>
    intro S p r h
    obtain ⟨on, c⟩ := x
    cases on with
    | true =>
      obtain ⟨⟨S1, p1⟩, h1, h⟩ := res_bind h
      simp only [keepRun, keepStep_eq dom diffHtml load route S p c h1]
      exact ih S1 p1 h
    | false => exact ih _ p h

theorem Server.keepRun_append {E : Type} (dom : WebDom) (diffHtml : Str → Str → Except E (List Patch))
    (load : Str → Page) (route : Str) (ds : List (Bool × Call)) : ∀ (cs : List (Bool × Call)) (S : Server) (p : Page),
    S.keepRun dom diffHtml load route p (cs ++ ds) =
      (S.keepRun dom diffHtml load route p cs).1.keepRun dom diffHtml load route
        (S.keepRun dom diffHtml load route p cs).2 ds := by
  intro cs
  induction cs with
  | nil => intro S p; rfl
  | cons x cs ih =>
    intro S p
    obtain ⟨on, c⟩ := x
    cases on <;> exact ih _ _

theorem Server.keepRun_server {E : Type} (dom : WebDom) (diffHtml : Str → Str → Except E (List Patch))
    (load : Str → Page) (route : Str) : ∀ (cs : List (Bool × Call)) (S : Server) (p : Page),
    (S.keepRun dom diffHtml load route p cs).1 = S.runAll diffHtml (cs.map Prod.snd) := by
  intro cs
  induction cs with
  | nil => intro S p; rfl
  | cons x cs ih =>
    intro S p
    obtain ⟨on, c⟩ := x
    cases on with
    | true =>
      have h1 : (S.keepStep dom diffHtml load route p c).1 = (S.run diffHtml c).1 := by
        unfold Server.keepStep
        generalize S.run diffHtml c = x
        obtain ⟨S1, ev⟩ := x
        simp only
        split <;> rfl
      simp only [keepRun, List.map_cons]
      rw [ih, h1]
      rfl
    | false => exact ih _ p

/-- **C73**, partial: however many errors have occurred before, and whatever the page looks like after them, when an
event Reload or HeadChanged arrives the client shows what is cached, and goes on to do so. Missing: as in
`C49_reload_heals_partial`. -/
theorem C73_reload_heals_partial (dom : WebDom) (parse : Str → Document) (body : Str → Nat)
    (load : Str → Page) (route : Str) (ok : Str → Prop) (hN : PlainNames N)
    (hload : ∀ h, ok h → (load h).Loads (parse h) (body h))
    (hpair : ∀ a b, ok a → ok b → Updatable dom hashNode N True (parse a) (parse b) (body a) (body b))
    (before : List (Bool × Call)) (c : Call) (calls : List (Bool × Call)) (hc : c.Follows ok route)
    (hcalls : ∀ c ∈ calls, c.2.Follows ok route) (S S1 : Server) (p : Page)
    (hS1 : S1 = S.runAll (fun a b => diff hashNode (parse a) (parse b)) (before.map Prod.snd))
    (hev : (S1.run (fun a b => diff hashNode (parse a) (parse b)) c).2 = some .reload ∨
      (S1.run (fun a b => diff hashNode (parse a) (parse b)) c).2 = some (.headChanged route))
    (hr : c.route = some route)
    (hmiss : (S1.run (fun a b => diff hashNode (parse a) (parse b)) c).1.MissesNone
      (fun a b => diff hashNode (parse a) (parse b)) route calls) :
    ∃ S' p', S.keepRun dom (fun a b => diff hashNode (parse a) (parse b)) load route p
        (before ++ (true, c) :: calls) = (S', p') ∧
      S' = S1.runAll (fun a b => diff hashNode (parse a) (parse b)) (c :: calls.map Prod.snd) ∧
      ∀ h, S'.html route = some h → (p'.arena.tree p'.body).inner = (parse h).toBodyHtml := by
  have hS := keepRun_server dom (fun a b => diff hashNode (parse a) (parse b)) load route before S p
  rw [← hS1] at hS
  obtain ⟨S', p', e1, e2, e3⟩ := C49_reload_heals_partial dom parse body load route ok hN hload hpair c calls hc hcalls
    S1 (S.keepRun dom (fun a b => diff hashNode (parse a) (parse b)) load route p before).2 hev hr hmiss
  refine ⟨S', p', ?_, e2, e3⟩
  rw [keepRun_append, hS]
  exact keepRun_eq dom _ load route _ _ _ e1

/-- A browser that rejects the attribute name `@click`, as browsers do. -/
def noAt : WebDom := { WebDom.lenient with attrOk := fun s => s.head? != some '@' }

/-- The case of `C73_attributes_up_to_the_rejected`: one attribute before the rejected name and one after it. -/
example : (let A := (Document.ofForest [ex "b" [("id", "1"), ("class", "x")] [], ex "p" [] []]).arena
    let r := noAt.applyPatchesKeep 2 A
      [.remove [0, 1], .updateProps [0, 0] [⟨.attr ⟨none, [], "id".toList⟩, some "2".toList⟩,
        ⟨.attr ⟨none, [], "@click".toList⟩, some []⟩, ⟨.attr ⟨none, [], "class".toList⟩, none⟩]]
    decide (r.2 = some .invalidName ∧ (r.1.tree 2).inner = "<b id=\"2\"></b>".toList)) = true := by decide +kernel

/-- **C73** is violated by patches that `diff` makes: an attribute of an element changes that also has an attribute
`@click`, and a paragraph is removed. The client removes all attributes of the element, fails, and does not remove the
paragraph. When the change is taken back, the client does not recover; it does with the next reload (the case of
`C73_reload_heals_partial`). -/
theorem C73_violated_live : ∃ cs ds : List Html, Html.plainL cs = true ∧ Html.plainL ds = true ∧
    (let run := fun calls => ((Server.new.cacheHtml ['r'] ['a']).1.keepRun noAt
        (fun a b => diff Shape.node (toyParse cs ds a) (toyParse cs ds b)) (toyLoad cs ds) ['r']
        (toyLoad cs ds ['a']) calls)
     let shows := fun (r : Server × Page) => (r.2.arena.tree r.2.body).inner
     let both : List (Bool × Call) := [(true, .diffRoute ['r'] ['b']), (true, .diffRoute ['r'] ['a'])]
     decide ((toyParse cs ds ['a']).toBodyHtml = "<b @click=\"f\" id=\"1\"></b><p></p>".toList ∧
       (toyParse cs ds ['b']).toBodyHtml = "<b @click=\"f\" id=\"2\"></b>".toList ∧
       shows (run []) = (toyParse cs ds ['a']).toBodyHtml ∧
       shows (run [(true, .diffRoute ['r'] ['b'])]) = "<b></b><p></p>".toList ∧
       (run [(true, .diffRoute ['r'] ['b'])]).1.html ['r'] = some ['b'] ∧
       shows (run both) = "<b></b><p></p>".toList ∧ (run both).1.html ['r'] = some ['a'] ∧
       shows (run (both ++ [(true, .diffRouteWithHead ['r'] ['b'] ['h'])])) = (toyParse cs ds ['b']).toBodyHtml)) =
      true :=
  ⟨[ex "b" [("@click", "f"), ("id", "1")] [], ex "p" [] []], [ex "b" [("@click", "f"), ("id", "2")] []],
    by decide +kernel, by decide +kernel, by decide +kernel⟩

end Hotmeal
