import Verif.Props.Apply
import Verif.Props.AnyPatches
import Verif.Props.PatchDebug
import Verif.Lemmas.RewriteNative

/-! # C26, C89: exactly when one patch fails

`Props/Apply.lean` says which malformed patches are reported. This file adds the converse: a patch other
than a Move is refused for no other reason, so that whether it is refused, and with which error, can be
told from what is printed for it. -/

set_option autoImplicit false
set_option linter.unusedSectionVars false

namespace Hotmeal

variable {parse : Str → Document} {A : Arena NodeData} {slots : Slots}

/-- The reasons for which a patch may be refused, each with its error. -/
inductive Refused (A : Arena NodeData) (slots : Slots) : Patch → Err → Prop
  | target {p : Patch} {path : Path} {e : Err} (hp : p.target = some path) (h : LeadsNowhere A slots path e) :
      Refused A slots p e
  | point {p : Patch} {path : Path} {e : Err} (hp : p.insertionPoint = some path) (h : NoPoint A slots path e) :
      Refused A slots p e
  | notText {path : Path} {n : Nat} (t : Str) (h : Leads A slots path n) (h1 : ∀ s, (A.data n).kind ≠ .text s)
      (h2 : ∀ s, (A.data n).kind ≠ .comment s) : Refused A slots (.setText path t) .notATextNode
  | notElementSet {path : Path} {n : Nat} (q : QualName) (v : Str) (h : Leads A slots path n)
      (h1 : ∀ tag attrs, (A.data n).kind ≠ .element tag attrs) :
      Refused A slots (.setAttribute path q v) .notAnElement
  | notElementRemove {path : Path} {n : Nat} (q : QualName) (h : Leads A slots path n)
      (h1 : ∀ tag attrs, (A.data n).kind ≠ .element tag attrs) :
      Refused A slots (.removeAttribute path q) .notAnElement

theorem point_total (path : Path) : (∃ q p pos, path = q ++ [pos] ∧ Leads A slots q p) ∨
    ∃ e, NoPoint A slots path e := by
  rcases snoc_cases path with rfl | ⟨q, pos, rfl⟩
  · exact .inr ⟨_, .short (by simp)⟩
  · by_cases hq : q = []
    · subst hq; exact .inr ⟨_, .short (by simp)⟩
    · rcases leads_total (A := A) (slots := slots) q with ⟨p, hp⟩ | ⟨e, he⟩
      · exact .inl ⟨q, p, pos, rfl, hp⟩
      · exact .inr ⟨e, .parent hq he⟩

/-- A node without a parent can be put at every place whose parent exists and is not below it. -/
theorem insertAt_free {B : Arena NodeData} (hB : B.WF) {x : Nat} (hx : x < B.next) (hxp : B.parent x = none) {q : Path}
    {p : Nat} (hq : Leads B slots q p) (hp : p < B.next) (hanc : ¬ B.Anc x p) (pos : Nat) (slot : Option Nat) :
    ∃ r, insertAt B slots (q ++ [pos]) x slot = .ok r := by
  have hn := hq.navigate
  obtain ⟨D', e, _⟩ := insertAt_app (pos := pos) hB hn hp hx hxp hanc
  cases slot with
  | none => exact ⟨_, e⟩
  | some k =>
    cases ho : (B.children p)[pos]? with
    | some occ =>
      obtain ⟨D2, e2, _⟩ := insertAt_put (k := k) hB hn ho hx hxp hanc
      exact ⟨_, e2⟩
    | none =>
      refine ⟨(D', slots), ?_⟩
      rw [← e]
      simp only [insertAt, slotParent_append hn, bind, Except.bind, displace, ho]

/-- A new node can be put at every place whose parent exists. -/
theorem insertAt_new {B : Arena NodeData} (hA : A.WF) (hs : ∀ s r, slots s = some r → r < A.next)
    (hg : Grows A B) {x : Nat} (hx : A.next ≤ x) (hx' : x < B.next) (hxp : B.parent x = none) {q : Path}
    {p : Nat} (hq : Leads A slots q p) (pos : Nat) (slot : Option Nat) :
    ∃ r, insertAt B slots (q ++ [pos]) x slot = .ok r := by
  obtain ⟨hp, hl⟩ := leads_grows hA hs hg hq
  have hle := hg.le
  refine insertAt_free hg.wf hx' hxp hl (by omega) ?_ pos slot
  intro ha
  have := desc_new hA hg.parent hx ha
  omega

/-- Taking a node out of the page, as a Move does first: it leaves an empty text behind, unless it is the
root of a slot. -/
def takeOut (A : Arena NodeData) (from_ : Path) (n : Nat) : Res (Arena NodeData) :=
  if 1 < from_.length then replaceByEmpty A n else .ok (A.detach n)

theorem takeOut_spec (hA : A.WF) (from_ : Path) {n : Nat} (hn : n < A.next) :
    ∃ A', takeOut A from_ n = .ok A' ∧ A'.WF ∧ A.next ≤ A'.next ∧ A'.parent n = none := by
  unfold takeOut
  split
  · cases hp : A.parent n with
    | none =>
      refine ⟨_, replaceByEmpty_free hA hn hp, hA.newNode _, by simp, ?_⟩
      rw [hA.newNode_parent, hp]
    | some p =>
      obtain ⟨A', e, hr⟩ := replaceByEmpty_repl hA hp
      exact ⟨A', e, hr.wf, by rw [hr.next]; omega, by rw [hr.parent, if_pos rfl]⟩
  · refine ⟨_, rfl, hA.detach n, by rw [Arena.detach_next]; omega, ?_⟩
    rw [Arena.detach_parent, if_pos rfl]

theorem replaceByEmpty_ok (hA : A.WF) {n : Nat} (hn : n < A.next) : ∃ A', replaceByEmpty A n = .ok A' := by
  have key : ∃ B, (A.newNode Document.emptyText).1.insertBefore n A.next = .ok B := by
    unfold Arena.insertBefore
    have hp : ((A.newNode Document.emptyText).1.detach A.next).parent n = A.parent n := by
      rw [Arena.detach_parent, if_neg (by omega), hA.newNode_parent]
    rw [if_neg (by omega)]
    simp only [hp]
    cases hq : A.parent n with
    | none => exact ⟨_, rfl⟩
    | some p =>
      have := hA.lt_of_parent _ _ hq
      simp only
      rw [if_neg (by omega)]
      exact ⟨_, rfl⟩
  obtain ⟨B, e⟩ := key
  refine ⟨B.detach n, ?_⟩
  show (do let A' ← (A.newNode Document.emptyText).1.insertBefore n A.next; Except.ok (A'.detach n)) = _
  rw [e]; rfl

/-- A patch other than a Move is applied unless there is one of the reasons to refuse it. -/
theorem applied_or_refused (hA : A.WF) (hs : ∀ s r, slots s = some r → r < A.next)
    (hparse : ∀ s, (parse s).arena.WF) (p : Patch) (hm : ∀ f t s, p ≠ .move f t s) :
    (∃ r, applyPatch parse A slots p = .ok r) ∨ ∃ e, Refused A slots p e := by
  have htarget : ∀ path, p.target = some path → (∃ n, Leads A slots path n ∧ n < A.next) ∨
      ∃ e, Refused A slots p e := by
    intro path hp
    rcases leads_total (A := A) (slots := slots) path with ⟨n, hn⟩ | ⟨e, he⟩
    · have hr : Grows A A := ⟨hA, Nat.le_refl _, fun _ _ => rfl, fun _ _ => rfl, fun _ _ => rfl⟩
      exact .inl ⟨n, hn, (leads_grows hA hs hr hn).1⟩
    · exact .inr ⟨e, .target hp he⟩
  cases p with
  | insertElement at_ tag attrs children slot =>
    rcases point_total (A := A) (slots := slots) at_ with ⟨q, p, pos, rfl, hq⟩ | ⟨e, he⟩
    · obtain ⟨A', m, e', hg, hm1, hm2, hm3⟩ := createInsertContent_spec (.element tag attrs children) A hA
      obtain ⟨r, hr⟩ := insertAt_new hA hs hg hm1 hm2 hm3 hq pos slot
      refine .inl ⟨r, ?_⟩
      simp only [createInsertContent, Arena.newNode_snd, bind, Except.bind] at e'
      simp only [applyPatch, Arena.newNode_snd, bind, Except.bind]
      cases hc : appendInsertContents (A.newNode ⟨.element tag attrs, .html⟩).1 A.next children with
      | error e => rw [hc] at e'; cases e'
      | ok B => rw [hc] at e'; cases e'; exact hr
    · exact .inr ⟨e, .point rfl he⟩
  | insertText at_ s slot =>
    rcases point_total (A := A) (slots := slots) at_ with ⟨q, p, pos, rfl, hq⟩ | ⟨e, he⟩
    · obtain ⟨A', m, e', hg, hm1, hm2, hm3⟩ := createInsertContent_spec (.text s) A hA
      obtain ⟨r, hr⟩ := insertAt_new hA hs hg hm1 hm2 hm3 hq pos slot
      simp only [createInsertContent, Except.ok.injEq] at e'
      refine .inl ⟨r, ?_⟩
      simp only [applyPatch, e']
      exact hr
    · exact .inr ⟨e, .point rfl he⟩
  | insertComment at_ s slot =>
    rcases point_total (A := A) (slots := slots) at_ with ⟨q, p, pos, rfl, hq⟩ | ⟨e, he⟩
    · obtain ⟨A', m, e', hg, hm1, hm2, hm3⟩ := createInsertContent_spec (.comment s) A hA
      obtain ⟨r, hr⟩ := insertAt_new hA hs hg hm1 hm2 hm3 hq pos slot
      simp only [createInsertContent, Except.ok.injEq] at e'
      refine .inl ⟨r, ?_⟩
      simp only [applyPatch, e']
      exact hr
    · exact .inr ⟨e, .point rfl he⟩
  | remove path =>
    rcases htarget path rfl with ⟨n, hn, hlt⟩ | h
    · obtain ⟨A', e⟩ := replaceByEmpty_ok hA hlt
      exact .inl ⟨(A', slots), by simp only [applyPatch, hn.navigate, e, bind, Except.bind]⟩
    · exact .inr h
  | setText path s =>
    rcases htarget path rfl with ⟨n, hn, hlt⟩ | h
    · rcases hd : A.data n with ⟨k, ns⟩
      have hk : (A.data n).kind = k := by rw [hd]
      cases k with
      | text t => exact .inl ⟨_, by simp only [applyPatch, hn.navigate, hd, bind, Except.bind]; rfl⟩
      | comment t => exact .inl ⟨_, by simp only [applyPatch, hn.navigate, hd, bind, Except.bind]; rfl⟩
      | _ => exact .inr ⟨_, .notText s hn (by rw [hk]; simp) (by rw [hk]; simp)⟩
    · exact .inr h
  | setAttribute path q v =>
    rcases htarget path rfl with ⟨n, hn, hlt⟩ | h
    · rcases hd : A.data n with ⟨k, ns⟩
      have hk : (A.data n).kind = k := by rw [hd]
      cases k with
      | element tag attrs => exact .inl ⟨_, by simp only [applyPatch, hn.navigate, hd, bind, Except.bind]; rfl⟩
      | _ => exact .inr ⟨_, .notElementSet q v hn (by rw [hk]; simp)⟩
    · exact .inr h
  | removeAttribute path q =>
    rcases htarget path rfl with ⟨n, hn, hlt⟩ | h
    · rcases hd : A.data n with ⟨k, ns⟩
      have hk : (A.data n).kind = k := by rw [hd]
      cases k with
      | element tag attrs => exact .inl ⟨_, by simp only [applyPatch, hn.navigate, hd, bind, Except.bind]; rfl⟩
      | _ => exact .inr ⟨_, .notElementRemove q hn (by rw [hk]; simp)⟩
    · exact .inr h
  | move f t s => exact absurd rfl (hm f t s)
  | updateProps path cs =>
    rcases htarget path rfl with ⟨n, hn, hlt⟩ | h
    · rcases hd : A.data n with ⟨k, ns⟩
      left
      simp only [applyPatch, hn.navigate, hd, bind, Except.bind]
      cases k <;> exact ⟨_, rfl⟩
    · exact .inr h
  | opaqueChanged path s =>
    rcases htarget path rfl with ⟨n, hn, hlt⟩ | h
    · have hw := detachAll_wf hA (A.children n)
      obtain ⟨A', ids, e, _⟩ := appendAll_builds
        ((wrapperChildren (parse (opaqueWrapper s))).map (cloneSubtree (parse (opaqueWrapper s)).arena))
        ((wrapperChildren (parse (opaqueWrapper s))).map (parse (opaqueWrapper s)).arena.tree)
        (detachAll A (A.children n)) n hw (by rw [detachAll_next]; exact hlt) (by simp) (by
          intro i r t hr ht
          rw [List.getElem?_map] at hr ht
          cases ec : (wrapperChildren (parse (opaqueWrapper s)))[i]? with
          | none => rw [ec] at hr; cases hr
          | some c =>
            rw [ec] at hr ht
            cases hr; cases ht
            exact cloneSubtree_builds (hparse _) c)
      rw [List.foldlM_map] at e
      refine .inl ⟨(A', slots), ?_⟩
      simp only [applyPatch, hn.navigate, bind, Except.bind] at e ⊢
      rw [e]
    · exact .inr h

/-- A patch with a reason to refuse it is refused, with the error of that reason. -/
theorem Refused.error (hA : A.WF) (hs : ∀ s r, slots s = some r → r < A.next) {p : Patch} {e : Err}
    (h : Refused A slots p e) : applyPatch parse A slots p = .error e := by
  cases h with
  | target hp h => exact C26_bad_target parse hp h
  | point hp h => exact C26_bad_insertion_point parse hA hs hp h
  | notText t h h1 h2 => exact C26_not_a_text_node parse h t h1 h2
  | notElementSet q v h h1 => exact (C26_not_an_element parse h q v h1).1
  | notElementRemove q h h1 => exact (C26_not_an_element parse h q [] h1).2

/-- **C26.** A patch other than a Move is refused exactly for one of the documented reasons, with the error
of that reason, and applied in all other cases. -/
theorem C26_refused_iff (hA : A.WF) (hs : ∀ s r, slots s = some r → r < A.next)
    (hparse : ∀ s, (parse s).arena.WF) (p : Patch) (hm : ∀ f t s, p ≠ .move f t s) :
    (∀ e, applyPatch parse A slots p = .error e ↔ Refused A slots p e) ∧
    ((∃ r, applyPatch parse A slots p = .ok r) ↔ ∀ e, ¬ Refused A slots p e) := by
  have key := applied_or_refused (parse := parse) hA hs hparse p hm
  refine ⟨fun e => ⟨fun h => ?_, Refused.error hA hs⟩, ⟨fun ⟨r, hr⟩ e h => ?_, fun h => ?_⟩⟩
  · rcases key with ⟨r, hr⟩ | ⟨e', he⟩
    · rw [hr] at h; cases h
    · have := he.error (parse := parse) hA hs
      rw [this] at h; cases h; exact he
  · have := h.error (parse := parse) hA hs
    rw [hr] at this; cases this
  · rcases key with h' | ⟨e, he⟩
    · exact h'
    · exact absurd he (h e)

/-- **C26, for Move.** A Move whose node exists takes it out, which always works. It is then refused exactly
if its target is not a place of the page without that node, and applied if the target is a place that is not
below the node itself. -/
theorem C26_move_outcome (hA : A.WF) (hs : ∀ s r, slots s = some r → r < A.next) {from_ to_ : Path}
    {slot : Option Nat} {n : Nat} (h : Leads A slots from_ n) :
    ∃ A', takeOut A from_ n = .ok A' ∧ A'.WF ∧ A'.parent n = none ∧
      (∀ e, NoPoint A' slots to_ e → applyPatch parse A slots (.move from_ to_ slot) = .error e) ∧
      (∀ q p pos, to_ = q ++ [pos] → Leads A' slots q p → ¬ A'.Anc n p →
        ∃ r, applyPatch parse A slots (.move from_ to_ slot) = .ok r) ∧
      ((∃ e, NoPoint A' slots to_ e) ∨ ∃ q p pos, to_ = q ++ [pos] ∧ Leads A' slots q p) := by
  have hr : Grows A A := ⟨hA, Nat.le_refl _, fun _ _ => rfl, fun _ _ => rfl, fun _ _ => rfl⟩
  have hn := (leads_grows hA hs hr h).1
  obtain ⟨A', e, hw, hle, hp⟩ := takeOut_spec hA from_ hn
  refine ⟨A', e, hw, hp, fun e' he => C26_bad_move_target parse h e he, ?_, ?_⟩
  · intro q p pos e1 hq hanc
    subst e1
    have hs' : ∀ s r, slots s = some r → r < A'.next := fun s r h => Nat.lt_of_lt_of_le (hs s r h) hle
    have hr' : Grows A' A' := ⟨hw, Nat.le_refl _, fun _ _ => rfl, fun _ _ => rfl, fun _ _ => rfl⟩
    have hlt := (leads_grows hw hs' hr' hq).1
    obtain ⟨r, hi⟩ := insertAt_free hw (by omega) hp hq hlt hanc pos slot
    refine ⟨r, ?_⟩
    unfold takeOut at e
    simp only [applyPatch, h.navigate, bind, Except.bind]
    split at e
    · next hl => rw [if_pos hl, e]; exact hi
    · next hl => rw [if_neg hl]; cases e; exact hi
  · rcases point_total (A := A') (slots := slots) to_ with h' | h'
    · exact .inr h'
    · exact .inl h'

/-- The reasons to refuse a patch do not depend on what its line leaves out. -/
theorem Refused.alike {p q : Patch} {e : Err} (h : Refused A slots p e) (ha : PatchDebug.Alike p q) :
    Refused A slots q e := by
  cases h with
  | target hp h =>
    refine .target (path := _) ?_ h
    rw [← hp]; cases ha <;> rfl
  | point hp h =>
    refine .point (path := _) ?_ h
    rw [← hp]; cases ha <;> rfl
  | notText t h h1 h2 => cases ha; exact .notText _ h h1 h2
  | notElementSet q v h h1 => cases ha; exact .notElementSet _ _ h h1
  | notElementRemove q h h1 => cases ha; exact .notElementRemove _ h h1

/-- **C89.** Two patches that are printed alike have the same outcome on every page: both are applied, or
both are refused with the same error. -/
theorem C89_same_outcome {dbg : Str → Str} (hd : Dump.DebugStr dbg) (hA : A.WF)
    (hs : ∀ s r, slots s = some r → r < A.next) (hparse : ∀ s, (parse s).arena.WF) {P Q : Patch}
    (hP : PatchDebug.Plain P) (hQ : PatchDebug.Plain Q) (h : PatchDebug.debug dbg P = PatchDebug.debug dbg Q) :
    (∀ e, applyPatch parse A slots P = .error e ↔ applyPatch parse A slots Q = .error e) ∧
    ((∃ r, applyPatch parse A slots P = .ok r) ↔ ∃ r, applyPatch parse A slots Q = .ok r) := by
  have ha := (PatchDebug.C89_printed_alike hd hP hQ).1 h
  have hb := (PatchDebug.C89_printed_alike hd hQ hP).1 h.symm
  by_cases hm : ∃ f t s, P = .move f t s
  · obtain ⟨f, t, s, rfl⟩ := hm
    cases ha
    exact ⟨fun _ => Iff.rfl, Iff.rfl⟩
  · have hmP : ∀ f t s, P ≠ .move f t s := fun f t s e => hm ⟨f, t, s, e⟩
    have hmQ : ∀ f t s, Q ≠ .move f t s := by
      rintro f t s rfl
      cases hb
      exact hmP f t s rfl
    obtain ⟨p1, p2⟩ := C26_refused_iff (parse := parse) hA hs hparse P hmP
    obtain ⟨q1, q2⟩ := C26_refused_iff (parse := parse) hA hs hparse Q hmQ
    refine ⟨fun e => ?_, ?_⟩
    · rw [p1, q1]
      exact ⟨fun h => h.alike ha, fun h => h.alike hb⟩
    · rw [p2, q2]
      exact ⟨fun h e he => h e (he.alike hb), fun h e he => h e (he.alike ha)⟩

/-! ### Concrete cases -/

/-- On `<b>x</b>y`, patches of every kind but Move that are applied, and one that is refused. -/
example :
    let D := Document.ofForest [ex "b" [] [.text "x".toList], .text "y".toList]
    let run := fun p => (applyPatchesKeep noParse D [p]).2
    run (.insertElement [0, 7] "p".toList [] [.text "t".toList] (some 1)) = none ∧
    run (.insertText [0, 0] "t".toList (some 1)) = none ∧ run (.insertComment [0, 1, 3] "t".toList none) = none ∧
    run (.remove [0, 0, 0]) = none ∧ run (.remove [0]) = none ∧ run (.setText [0, 1] []) = none ∧
    run (.setAttribute [0] ⟨none, [], "id".toList⟩ []) = none ∧
    run (.removeAttribute [0, 0] ⟨none, [], "id".toList⟩) = none ∧ run (.updateProps [0, 1] []) = none ∧
    run (.opaqueChanged [0, 1] "z".toList) = none ∧ run (.setText [0] []) = some .notATextNode := by
  decide +kernel

/-- A Move that is applied, one whose target is not a place, and one below its own node, which panics. -/
example :
    let D := Document.ofForest [ex "b" [] [.text "x".toList], .text "y".toList]
    let run := fun ps => (applyPatchesKeep noParse D ps).2
    run [.move [0, 0] [0, 5] (some 1)] = none ∧ run [.move [0, 0] [7, 0] none] = some (.slotNotFound 7) ∧
    run [.insertText [0, 0] [] (some 1), .move [1] [1, 0] none] = some .panic := by
  decide +kernel

/-- The hypotheses of `C89_same_outcome` hold for a page, its slots after `init_patch_slots` and two inserts
with different attributes. -/
example :
    let I := initSlots (Document.ofForest [ex "b" [] [.text "x".toList], .text "y".toList])
    let P : Patch := .insertElement [0, 0] "a".toList [(⟨none, [], "id".toList⟩, "x".toList)] [] none
    let Q : Patch := .insertElement [0, 0] "a".toList [(⟨none, [], "class".toList⟩, "y".toList)] [] none
    I.1.arena.WF ∧ (∀ s r, I.2 s = some r → r < I.1.arena.next) ∧ (∀ s, (noParse s).arena.WF) ∧ P ≠ Q ∧
    PatchDebug.Plain P ∧ PatchDebug.Plain Q := by
  have h := (ofForest_spec [ex "b" [] [.text "x".toList], .text "y".toList] (by decide +kernel)).1
  obtain ⟨b, hb, _, hw, hlt, _⟩ := initSlots_fenced h
  refine ⟨hw, ?_, ?_, ?_, trivial, trivial⟩
  · intro s r e
    rw [hb, Arena.upd_apply] at e
    split at e
    · cases e; exact hlt
    · cases e
  · exact fun _ => Document.new_sound.arena.wf
  · simp only [ne_eq, Patch.insertElement.injEq, List.cons.injEq, Prod.mk.injEq, QualName.mk.injEq, not_and]
    intro _ _ h
    exact absurd h.1.1.2.2 (by decide +kernel)

end Hotmeal
