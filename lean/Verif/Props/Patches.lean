import Verif.Lemmas.RewriteNative
import Verif.Lemmas.RewriteBrowser
import Verif.Lemmas.Html
import Verif.Props.Browser

set_option autoImplicit false
set_option linter.unusedSectionVars false

/-!
# C46 and C47: patches are rewriting of trees

The specification is `Dialect.run` in `Spec/Patch.lean`: a patch is described there as a change of
trees, without nodes, ids or parents. Here it is shown that `apply_patches` of the library and of
the browser client do that, for every list of patches, whether or not `diff` made it.
-/

namespace Hotmeal

variable {D : Document} {b : Nat}

/-- Outside a subtree. -/
def OutsideOf (A : Arena NodeData) (b m : Nat) : Prop := m < A.next ∧ ¬ A.Anc b m

theorem fence_of {A : Arena NodeData} (h : A.WF) (hb : b < A.next) : Fence A b (OutsideOf A b) where
  up := fun m p hm hp => ⟨(h.lt_of_parent _ _ hp).2, fun ha => hm.2 (.step hp ha)⟩
  base := fun p hp => ⟨(h.lt_of_parent _ _ hp).2, fun ha =>
    h.self_parent_ne hp (h.anc_antisymm (.step hp .refl) ha)⟩
  notb := fun hm => hm.2 .refl
  blt := hb
  lt := fun _ hm => hm.1

theorem rep_init {A : Arena NodeData} (h : A.WF) (hb : b < A.next) {slots : Slots}
    (h0 : slots 0 = some b) :
    Rep A b (OutsideOf A b) A slots (Store.init (A.tree b)) none := by
  have zero : ∀ s, Store.init (A.tree b) s ≠ none → s = 0 := by
    intro s hs
    unfold Store.init at hs
    split at hs
    · assumption
    · exact absurd rfl hs
  refine ⟨⟨h, Nat.le_refl _, ?_, ?_, ?_, fun _ _ => rfl, fun _ _ => rfl, fun _ _ => rfl, rfl⟩, ?_, ?_, h0,
    by simp [Store.init], by simp⟩
  all_goals first
    | (intro r hr
       rcases hr with ⟨s, hs, hr⟩ | ⟨t, hr⟩
       · rw [zero s hs, h0] at hr
         cases hr
         first
           | exact hb
           | exact fun hne => absurd rfl hne
           | exact fun hm => hm.2 .refl
       · cases hr)
    | skip
  · intro s t hs
    have := zero s (by rw [hs]; simp)
    subst this
    simp only [Store.init, if_true, Option.some.injEq] at hs
    exact ⟨b, h0, hs⟩
  · intro s s' hs hs' _
    rw [zero s hs, zero s' hs']

theorem Rep.native_run {A0 A : Arena NodeData} {F : Nat → Prop} {slots : Slots} {σ σ' : Store}
    {parse : Str → Document} (hF : Fence A0 b F) (hp : ∀ s, (parse s).arena.Sound) {ps : List Patch}
    (h : Rep A0 b F A slots σ none)
    (ha : (Dialect.library (parsedContent parse)).run σ ps = some σ') :
    ∃ A' slots', applyLoop parse A slots ps = .ok (A', slots') ∧ Rep A0 b F A' slots' σ' none := by
  induction ps generalizing A slots σ with
  | nil => cases ha; exact ⟨A, slots, rfl, h⟩
  | cons p ps ih =>
    simp only [Dialect.run] at ha
    split at ha
    · cases ha
    · next σ1 e =>
      obtain ⟨A1, s1, e1, h1⟩ := h.native_step hF hp e
      obtain ⟨A2, s2, e2, h2⟩ := ih h1 ha
      exact ⟨A2, s2, by simp only [applyLoop, e1, bind, Except.bind, e2], h2⟩

theorem Rep.browser_run {A0 A : Arena NodeData} {F : Nat → Prop} {slots : Slots} {σ σ' : Store}
    (hF : Fence A0 b F) {ps : List Patch} (h : Rep A0 b F A (Wasm.view b slots) σ none)
    (ha : Dialect.page.run σ ps = some σ') :
    ∃ A' slots', Wasm.applyLoop b A slots ps = .ok (A', slots') ∧
      Rep A0 b F A' (Wasm.view b slots') σ' none := by
  induction ps generalizing A slots σ with
  | nil => cases ha; exact ⟨A, slots, rfl, h⟩
  | cons p ps ih =>
    simp only [Dialect.run] at ha
    split at ha
    · cases ha
    · next σ1 e =>
      obtain ⟨A1, s1, e1, h1⟩ := h.browser_step hF e
      obtain ⟨A2, s2, e2, h2⟩ := ih h1 ha
      exact ⟨A2, s2, by simp only [Wasm.applyLoop, e1, bind, Except.bind, e2], h2⟩

/-! ### The patched tree keeps its tag -/

/-- Slot 0 holds an element with the given tag. -/
def Store.RootTag (tag : Str) (σ : Store) : Prop := ∃ attrs cs, σ 0 = some (.element tag attrs cs)

theorem Store.RootTag.write {tag : Str} {σ : Store} (h : σ.RootTag tag) {path : Path}
    {t : Str} {a : Attrs} {cs : List Html} (hf : σ.find path = some (.element t a cs)) (a' : Attrs)
    (cs' : List Html) : (σ.write path (.element t a' cs')).RootTag tag := by
  obtain ⟨a0, cs0, e⟩ := h
  cases path with
  | nil => cases hf
  | cons s q =>
    unfold Store.write Store.slot RootTag
    by_cases hs : s = 0
    · subst hs
      cases q with
      | nil =>
        simp only [Store.find, e, Html.get?, Option.some.injEq, Html.element.injEq] at hf
        obtain ⟨rfl, _, _⟩ := hf
        exact ⟨a', cs', by simp [e, Html.put]⟩
      | cons i is => exact ⟨a0, _, by simp [e, Html.put]; rfl⟩
    · exact ⟨a0, cs0, by simp only [if_neg (Ne.symm hs), e]⟩

theorem Store.RootTag.write_leaf {tag : Str} {σ : Store} (h : σ.RootTag tag) {path : Path} {u : Html}
    (hf : σ.find path = some u) (hu : ∀ t a cs, u ≠ .element t a cs) (v : Html) :
    (σ.write path v).RootTag tag := by
  obtain ⟨a0, cs0, e⟩ := h
  cases path with
  | nil => exact ⟨a0, cs0, e⟩
  | cons s q =>
    unfold Store.write Store.slot RootTag
    by_cases hs : s = 0
    · subst hs
      cases q with
      | nil =>
        simp only [Store.find, e, Html.get?, Option.some.injEq] at hf
        exact absurd hf.symm (hu _ _ _)
      | cons i is => exact ⟨a0, _, by simp [e, Html.put]; rfl⟩
    · exact ⟨a0, cs0, by simp only [if_neg (Ne.symm hs), e]⟩

theorem Store.RootTag.slot {tag : Str} {σ : Store} (h : σ.RootTag tag) {k : Nat} (hk : k ≠ 0)
    (v : Option Html) : (σ.slot k v).RootTag tag := by
  obtain ⟨a0, cs0, e⟩ := h
  exact ⟨a0, cs0, by rw [Store.slot, if_neg (Ne.symm hk), e]⟩

theorem Store.RootTag.insert {tag : Str} {σ σ' : Store} (h : σ.RootTag tag) {sh : Bool} {at_ : Path}
    {x : Html} {slot : Option Nat} (hi : σ.insert sh at_ x slot = some σ') : σ'.RootTag tag := by
  unfold Store.insert at hi
  split at hi
  · cases hi
  · next h0 =>
    split at hi
    · next tg at' cs _ hf =>
      have h1 := h.write hf at' (Store.place sh ‹_› x slot.isSome cs)
      simp only at hi
      split at hi
      · next k occ _ => cases hi; exact h1.slot (by rintro rfl; exact h0 rfl) _
      · cases hi; exact h1
    · cases hi

theorem Store.RootTag.take {tag : Str} {σ σ' : Store} (h : σ.RootTag tag) {path : Path} {t : Html}
    (ht : σ.take path = some (t, σ')) : σ'.RootTag tag := by
  unfold Store.take at ht
  split at ht
  · cases ht
  · split at ht
    · cases ht
    · split at ht
      · cases ht
      · next h0 => cases ht; exact h.slot h0 _
    · next hne =>
      cases ht
      obtain ⟨a0, cs0, e⟩ := h
      cases path with
      | nil => exact ⟨a0, cs0, e⟩
      | cons s q =>
        unfold Store.write Store.slot RootTag
        by_cases hs : s = 0
        · subst hs
          cases q with
          | nil => exact absurd rfl (hne 0)
          | cons i is => exact ⟨a0, _, by simp [e, Html.put]; rfl⟩
        · exact ⟨a0, cs0, by simp only [if_neg (Ne.symm hs), e]⟩

theorem Dialect.apply_rootTag (d : Dialect) {tag : Str} {σ σ' : Store} (h : σ.RootTag tag) {P : Patch}
    (ha : d.apply σ P = some σ') : σ'.RootTag tag := by
  cases P with
  | insertElement at_ tg attrs cs slot => exact h.insert ha
  | insertText at_ s slot => exact h.insert ha
  | insertComment at_ s slot => exact h.insert ha
  | remove path =>
    simp only [Dialect.apply, Option.map_eq_some_iff, Prod.exists, exists_eq_right] at ha
    obtain ⟨t, ha⟩ := ha
    exact h.take ha
  | move from_ to slot =>
    simp only [Dialect.apply] at ha
    split at ha
    · cases ha
    · next t σ1 e => exact (h.take e).insert ha
  | setText path s =>
    simp only [Dialect.apply] at ha
    split at ha
    · next hf => cases ha; exact h.write_leaf hf (by simp) _
    · next hf => cases ha; exact h.write_leaf hf (by simp) _
    · next hf =>
      obtain ⟨f, _, rfl⟩ := Option.map_eq_some_iff.1 ha
      exact h.write hf _ _
    · cases ha
  | setAttribute path name v =>
    simp only [Dialect.apply] at ha
    split at ha
    · next hf => cases ha; exact h.write hf _ _
    · cases ha
  | removeAttribute path name =>
    simp only [Dialect.apply] at ha
    split at ha
    · next hf => cases ha; exact h.write hf _ _
    · cases ha
  | updateProps path changes =>
    simp only [Dialect.apply] at ha
    split at ha
    · next hf => cases ha; exact h.write_leaf hf (by simp) _
    · next hf => cases ha; exact h.write_leaf hf (by simp) _
    · next hf => cases ha; exact h.write hf _ _
    · cases ha
  | opaqueChanged path s =>
    simp only [Dialect.apply] at ha
    split at ha
    · next hf => cases ha; exact h.write hf _ _
    · cases ha

theorem Dialect.run_rootTag (d : Dialect) {tag : Str} {σ σ' : Store} (h : σ.RootTag tag) {ps : List Patch}
    (ha : d.run σ ps = some σ') : σ'.RootTag tag := by
  induction ps generalizing σ with
  | nil => cases ha; exact h
  | cons p ps ih =>
    simp only [Dialect.run] at ha
    split at ha
    · cases ha
    · next σ1 e => exact ih (d.apply_rootTag h e) ha

theorem applyPatches_of_body (parse : Str → Document) (hb : D.body = some b) {ps : List Patch}
    {A : Arena NodeData} {slots : Slots}
    (h : applyLoop parse D.arena (Arena.upd (fun _ => none) 0 (some b)) ps = .ok (A, slots)) :
    applyPatches parse D ps = .ok { D with arena := A } := by
  unfold applyPatches initSlots Document.ensureBody
  rw [hb]
  split
  · next he =>
    cases ps with
    | nil => simp only [applyLoop, Except.ok.injEq, Prod.mk.injEq] at h; rw [← h.1]
    | cons p ps => simp at he
  · simp only [bind, Except.bind, h]

/-- The children of the root that `find?` looks at, before and after a change below the body. -/
theorem body_after {A : Arena NodeData} (hb : D.body = some b) (hr : A.children D.root = D.arena.children D.root)
    (hd : ∀ c ∈ D.arena.children D.root, c ≠ b → A.data c = D.arena.data c)
    (hk : ∃ attrs, (A.data b).kind = .element "body".toList attrs) :
    ({ D with arena := A } : Document).body = some b := by
  obtain ⟨_, a0, hk0⟩ := Document.body_spec hb
  obtain ⟨a1, hk1⟩ := hk
  rw [← hb]
  unfold Document.body
  show (A.children D.root).find? _ = _
  rw [hr]
  have key : ∀ cs : List Nat, (∀ c ∈ cs, c ∈ D.arena.children D.root) →
      cs.find? (({ D with arena := A } : Document).hasTag "body".toList) =
      cs.find? (D.hasTag "body".toList) := by
    intro cs
    induction cs with
    | nil => intro _; rfl
    | cons c cs ih =>
      intro hcs
      have e : ({ D with arena := A } : Document).hasTag "body".toList c = D.hasTag "body".toList c := by
        by_cases hcb : c = b
        · subst hcb
          simp only [Document.hasTag, hk0, hk1]
        · simp only [Document.hasTag, hd c (hcs c (by simp)) hcb]
      rw [List.find?_cons, List.find?_cons, e, ih (fun c hc => hcs c (List.mem_cons_of_mem _ hc))]
  exact key _ (fun _ h => h)

/-- **C46.** Whatever the patches: if the rewriting of trees goes through, then `apply_patches`
succeeds, the body's tree is the rewritten tree, and nothing outside the body has changed. -/
theorem C46_patches_rewrite_the_tree (parse : Str → Document) (hw : D.arena.WF) (hb : D.body = some b)
    (hp : ∀ s, (parse s).arena.Sound) {ps : List Patch} {σ : Store}
    (hr : (Dialect.library (parsedContent parse)).run (Store.init (D.arena.tree b)) ps = some σ) :
    ∃ D', applyPatches parse D ps = .ok D' ∧ D'.body = some b ∧ σ 0 = some (D'.arena.tree b) ∧
      D'.doctype = D.doctype ∧ D'.root = D.root ∧ D'.arena.WF ∧
      D'.arena.parent b = D.arena.parent b ∧
      ∀ n, n < D.arena.next → ¬ D.arena.Anc b n →
        D'.arena.data n = D.arena.data n ∧ D'.arena.parent n = D.arena.parent n ∧
        D'.arena.children n = D.arena.children n := by
  obtain ⟨hbm, a0, hk0⟩ := Document.body_spec hb
  have hbp := (hw.mem_iff _ _).1 hbm
  have hlt := (hw.lt_of_parent _ _ hbp).1
  have hF := fence_of hw hlt
  obtain ⟨A', slots', e, hrep⟩ := (rep_init hw hlt (slots := Arena.upd (fun _ => none) 0 (some b))
    (by simp)).native_run hF hp hr
  have hroot : (Store.init (D.arena.tree b)).RootTag "body".toList := by
    refine ⟨a0, D.arena.forest b, ?_⟩
    simp only [Store.init, if_true]
    rw [hw.tree_eq, hk0]; rfl
  obtain ⟨a1, cs1, e1⟩ := (Dialect.library (parsedContent parse)).run_rootTag hroot hr
  obtain ⟨r, er, etr⟩ := hrep.root 0 _ e1
  rw [hrep.zero] at er
  cases er
  refine ⟨{ D with arena := A' }, applyPatches_of_body parse hb e, ?_, by rw [e1, etr], rfl, rfl,
    hrep.grove.wf, hrep.grove.bpar, fun n h1 h2 =>
      ⟨hrep.grove.data n ⟨h1, h2⟩, hrep.grove.parent n ⟨h1, h2⟩, hrep.grove.children n ⟨h1, h2⟩⟩⟩
  refine body_after hb (hrep.grove.children _ (hF.base _ hbp)) (fun c hc hcb => ?_) ?_
  · have hcp := (hw.mem_iff _ _).1 hc
    refine hrep.grove.data c ⟨(hw.lt_of_parent _ _ hcp).1, fun ha => ?_⟩
    rcases ha.cases' with e' | ⟨q, hq, ha'⟩
    · exact hcb e'.symm
    · rw [hcp] at hq; cases hq
      exact (hF.base _ hbp).2 ha'
  · have hk := Rep.kind_of_tree hrep.grove.wf etr
    refine ⟨a1, ?_⟩
    cases hkk : (A'.data b).kind with
    | element t a => rw [hkk] at hk; simp only [Html.ofKind, Html.element.injEq] at hk; rw [hk.1, hk.2.1]
    | text s => rw [hkk] at hk; cases hk
    | comment s => rw [hkk] at hk; cases hk
    | document => rw [hkk] at hk; cases hk

/-- **C46**, as it shows: what `to_body_html` writes after the patches is the content of the rewritten
tree. -/
theorem C46_patched_html (parse : Str → Document) (hw : D.arena.WF) (hb : D.body = some b)
    (hp : ∀ s, (parse s).arena.Sound) {ps : List Patch} {σ : Store} {tag : Str} {attrs : Attrs} {cs : List Html}
    (hr : (Dialect.library (parsedContent parse)).run (Store.init (D.arena.tree b)) ps = some σ)
    (h0 : σ 0 = some (.element tag attrs cs)) :
    ∃ D', applyPatches parse D ps = .ok D' ∧ D'.toBodyHtml = Html.serL false cs := by
  obtain ⟨D', e, e1, e2, _, _, hw', _⟩ := C46_patches_rewrite_the_tree parse hw hb hp hr
  refine ⟨D', e, ?_⟩
  rw [toBodyHtml_eq, Document.bodyForest, e1]
  rw [h0] at e2
  simp only [Option.some.injEq] at e2
  have hk := Rep.kind_of_tree hw' e2.symm
  congr 1
  cases hkk : (D'.arena.data b).kind with
  | element t a => rw [hkk] at hk; simp only [Html.ofKind, Html.element.injEq] at hk; exact hk.2.2
  | text s => rw [hkk] at hk; cases hk
  | comment s => rw [hkk] at hk; cases hk
  | document => rw [hkk] at hk; cases hk

/-- **C46** for a document without body: the patches rewrite an empty body element, which is created. -/
theorem C46_patches_create_the_body (parse : Str → Document) (hw : D.arena.WF) (hroot : D.root < D.arena.next)
    (hb : D.body = none) (hp : ∀ s, (parse s).arena.Sound) {ps : List Patch} (hne : ps ≠ []) {σ : Store}
    (hr : (Dialect.library (parsedContent parse)).run (Store.init (.element "body".toList [] [])) ps = some σ) :
    ∃ D' b, applyPatches parse D ps = .ok D' ∧ D'.body = some b ∧ σ 0 = some (D'.arena.tree b) ∧
      D'.doctype = D.doctype ∧ D'.root = D.root ∧
      D'.arena.children D.root = D.arena.children D.root ++ [b] ∧
      ∀ n, n < D.arena.next →
        D'.arena.data n = D.arena.data n ∧ D'.arena.parent n = D.arena.parent n ∧
        (n ≠ D.root → D'.arena.children n = D.arena.children n) := by
  have w1 := hw.addChild hroot (Document.elem "body".toList)
  have n1 := Arena.addChild_next D.arena D.root (Document.elem "body".toList)
  have c1 := hw.addChild_children D.root (Document.elem "body".toList)
  have d1 := Arena.addChild_data D.arena D.root (Document.elem "body".toList)
  have p1 := hw.addChild_parent D.root (Document.elem "body".toList)
  have eD : D.ensureBody = ({ D with arena := (D.arena.addChild D.root (Document.elem "body".toList)).1 }, D.arena.next) := by
    unfold Document.ensureBody; rw [hb]; rfl
  have hb1 : ({ D with arena := (D.arena.addChild D.root (Document.elem "body".toList)).1 } : Document).body =
      some D.arena.next := by
    have hn : (D.arena.children D.root).find? (D.hasTag "body".toList) = none := hb
    unfold Document.body
    show ((D.arena.addChild D.root (Document.elem "body".toList)).1.children D.root).find? _ = _
    rw [c1, if_pos rfl, List.find?_append]
    have : (D.arena.children D.root).find?
        (({ D with arena := (D.arena.addChild D.root (Document.elem "body".toList)).1 } : Document).hasTag "body".toList) =
        none := by
      rw [List.find?_eq_none] at hn ⊢
      intro c hc
      have hlt := (hw.lt_of_parent _ _ ((hw.mem_iff _ _).1 hc)).1
      have := hn c hc
      simp only [Document.hasTag, d1, if_neg (Nat.ne_of_lt hlt)] at this ⊢
      exact this
    rw [this]
    have hk : ({ D with arena := (D.arena.addChild D.root (Document.elem "body".toList)).1 } : Document).hasTag
        "body".toList D.arena.next = true := by
      unfold Document.hasTag
      show (match ((D.arena.addChild D.root (Document.elem "body".toList)).1.data D.arena.next).kind with
        | .element t _ => t == "body".toList
        | _ => false) = true
      rw [d1, if_pos rfl]
      exact beq_self_eq_true _
    rw [List.find?_cons, hk]; rfl
  have ht : (D.arena.addChild D.root (Document.elem "body".toList)).1.tree D.arena.next = .element "body".toList [] [] := by
    rw [w1.tree_eq, d1, if_pos rfl, Arena.forest, c1, if_neg (by omega), hw.children_ge (Nat.le_refl _)]
    rfl
  obtain ⟨D', e, e1, e2, e3, e4, _, _, e6⟩ := C46_patches_rewrite_the_tree parse
    (D := { D with arena := (D.arena.addChild D.root (Document.elem "body".toList)).1 }) w1 hb1 hp (ps := ps) (σ := σ)
    (by rw [ht]; exact hr)
  have hout : ∀ n, n < D.arena.next → n < (D.arena.addChild D.root (Document.elem "body".toList)).1.next ∧
      ¬ (D.arena.addChild D.root (Document.elem "body".toList)).1.Anc D.arena.next n := by
    intro n hn
    refine ⟨by omega, fun ha => ?_⟩
    have : ∀ m, (D.arena.addChild D.root (Document.elem "body".toList)).1.Anc D.arena.next m → m = D.arena.next := by
      intro m hm
      induction hm with
      | refl => rfl
      | @step m q hq _ ih =>
        subst ih
        have := (w1.mem_iff _ _).2 hq
        rw [c1, if_neg (by omega), hw.children_ge (Nat.le_refl _)] at this
        cases this
    have := this n ha
    omega
  refine ⟨D', D.arena.next, ?_, e1, e2, e3, e4, ?_, fun n hn => ?_⟩
  · rw [← e]
    unfold applyPatches initSlots
    rw [eD]
    simp only
    have eD2 : Document.ensureBody { D with arena := (D.arena.addChild D.root (Document.elem "body".toList)).1 } =
        ({ D with arena := (D.arena.addChild D.root (Document.elem "body".toList)).1 }, D.arena.next) := by
      unfold Document.ensureBody; rw [hb1]
    rw [eD2]
    cases ps with
    | nil => exact absurd rfl hne
    | cons p ps => rfl
  · have := (e6 D.root (hout _ hroot).1 (hout _ hroot).2).2.2
    rw [this, c1, if_pos rfl]
  · obtain ⟨h1, h2, h3⟩ := e6 n (hout n hn).1 (hout n hn).2
    refine ⟨?_, ?_, fun hnr => ?_⟩
    · rw [h1, d1, if_neg (by omega)]
    · rw [h2, p1, if_neg (by omega)]
    · rw [h3, c1, if_neg hnr]

/-- The browser client on a DOM that takes all names as they are. -/
theorem Wasm.rewrites {E : Arena NodeData} (hw : E.WF) (hb : b < E.next) {ps : List Patch}
    {σ : Store} (hr : Dialect.page.run (Store.init (E.tree b)) ps = some σ) :
    ∃ E', Wasm.applyPatches b E ps = .ok E' ∧ σ 0 = some (E'.tree b) ∧ E'.WF ∧
      E'.parent b = E.parent b ∧
      ∀ n, n < E.next → ¬ E.Anc b n →
        E'.data n = E.data n ∧ E'.parent n = E.parent n ∧ E'.children n = E.children n := by
  have hF := fence_of hw hb
  obtain ⟨E', slots', e, hrep⟩ := (rep_init hw hb (slots := Wasm.view b (fun _ => none))
    (by simp [Wasm.view])).browser_run hF hr
  refine ⟨E', by simp only [Wasm.applyPatches, e, bind, Except.bind], ?_, hrep.grove.wf, hrep.grove.bpar,
    fun n h1 h2 =>
      ⟨hrep.grove.data n ⟨h1, h2⟩, hrep.grove.parent n ⟨h1, h2⟩, hrep.grove.children n ⟨h1, h2⟩⟩⟩
  cases e0 : σ 0 with
  | none => exact absurd e0 hrep.filled
  | some t =>
    obtain ⟨r, er, etr⟩ := hrep.root 0 t e0
    rw [hrep.zero] at er
    cases er
    rw [etr]

/-- **C47.** The browser client: whatever the patches, if their names are accepted and kept by the DOM
and the rewriting of trees goes through, then `apply_patches` succeeds, the patched element's tree is
the rewritten tree, and nothing outside the patched element has changed. (The page is one whose HTML
elements have lower-case attribute names, as the HTML parser makes them.) -/
theorem C47_patches_rewrite_the_page (dom : WebDom) {E : Arena NodeData} (hw : E.WF) (hl : E.Lower)
    (hb : b < E.next) {ps : List Patch} (hk : ∀ P ∈ ps, dom.Keeps P)
    {σ : Store} (hr : Dialect.page.run (Store.init (E.tree b)) ps = some σ) :
    ∃ E', dom.applyPatches b E ps = .ok E' ∧ σ 0 = some (E'.tree b) ∧ E'.WF ∧ E'.Lower ∧
      E'.parent b = E.parent b ∧
      ∀ n, n < E.next → ¬ E.Anc b n →
        E'.data n = E.data n ∧ E'.parent n = E.parent n ∧ E'.children n = E.children n := by
  obtain ⟨E', e1, e2, e3, e4, e5⟩ := Wasm.rewrites hw hb hr
  exact ⟨E', by rw [WebDom.applyPatches_eq hl hk, e1], e2, e3, WebDom.lower_applyPatches hl hk e1, e4, e5⟩

/-! ### Concrete cases -/

/-- A list of patches with every kind of patch: displacing into a slot, moving out of the slot and
filling a gap. -/
def exPatches : List Patch :=
  [.insertElement [0, 0] "h1".toList [(⟨none, [], "id".toList⟩, "t".toList)] [.text "T".toList] (some 1),
   .setAttribute [1] ⟨none, [], "class".toList⟩ "b".toList,
   .move [1, 0] [0, 0, 3] none,
   .remove [0, 0, 0],
   .move [1] [0, 1] (some 2),
   .insertText [2, 0] "x".toList none,
   .insertComment [0, 1, 1] "c".toList (some 3),
   .setText [0, 0, 3, 0] "1".toList,
   .removeAttribute [0, 0] ⟨none, [], "id".toList⟩,
   .updateProps [0, 1] [⟨.attr ⟨none, [], "class".toList⟩, none⟩, ⟨.attr ⟨none, [], "k".toList⟩, some "v".toList⟩],
   .insertElement [0, 2] "p".toList [] [] none]

/-- The body content they are applied to. -/
def exBefore : List Html :=
  [ex "ul" [("class", "a")] [ex "li" [] [.text "one".toList], ex "li" [] [.text "two".toList]],
   ex "hr" [] []]

/-- The body content they give. -/
def exAfter : List Html :=
  [ex "h1" [] [.text [], .text [], .text [], ex "li" [] [.text "1".toList]],
   ex "ul" [("class", "b"), ("k", "v")] [.text [], .comment "c".toList],
   ex "p" [] []]

/-- The tree in slot 0 after some patches. -/
def Dialect.result (d : Dialect) (t : Html) (ps : List Patch) : Option Html :=
  (d.run (Store.init t) ps).bind fun σ => σ 0

/-- `C46_patches_rewrite_the_tree` and `C46_patched_html` apply to them. -/
example : (Document.ofForest exBefore).arena.WF ∧ (Document.ofForest exBefore).body = some 2 ∧
    (Dialect.library (parsedContent fun _ => Document.new)).result
      ((Document.ofForest exBefore).arena.tree 2) exPatches =
        some (.element "body".toList [] exAfter) :=
  ⟨(ofForest_valid _ (by decide +kernel)).wf, by decide +kernel, by rfl⟩

/-- `C46_patches_create_the_body` applies to a document that consists of an `html` element only. -/
example : (⟨⟨1, fun _ => none, fun _ => [], fun _ => Document.elem "html".toList⟩, 0, none⟩ : Document).body = none ∧
    (Dialect.library (parsedContent fun _ => Document.new)).result
      (.element "body".toList [] []) [.insertText [0, 0] "x".toList none] =
        some (.element "body".toList [] [.text "x".toList]) :=
  ⟨by decide +kernel, by rfl⟩

/-- `C47_patches_rewrite_the_page` applies to them. -/
example : (Document.ofForest exBefore).arena.WF ∧ (Document.ofForest exBefore).arena.Lower ∧
    2 < (Document.ofForest exBefore).arena.next ∧ (∀ P ∈ exPatches, WebDom.lenient.Keeps P) ∧
    Dialect.page.result ((Document.ofForest exBefore).arena.tree 2) exPatches =
      some (.element "body".toList [] exAfter) :=
  ⟨(ofForest_valid _ (by decide +kernel)).wf, lower_ofForest (by decide +kernel), by decide +kernel, by
    simp [exPatches, WebDom.Keeps, Patch.All, InsertContent.AllL, InsertContent.All, WebDom.KeepsTag,
      WebDom.KeepsName, WebDom.lenient]
    decide, by rfl⟩

/-- The two appliers do not agree on every list of patches: a node that is inserted at a taken index
without a slot pushes the others up in the library and replaces the one that is there in the
browser. `diff` does not make such a patch (`C31_browser_agrees_partial`). -/
theorem C47_appliers_differ : ∃ (cs : List Html) (P : Patch) (D : Document) (E : Arena NodeData),
    Html.plainL cs = true ∧
    applyPatches (fun _ => Document.new) (.ofForest cs) [P] = .ok D ∧
    Wasm.applyPatches 2 (Document.ofForest cs).arena [P] = .ok E ∧
    D.arena.tree 2 = .element "body".toList [] [.text "x".toList, ex "p" [] []] ∧
    E.tree 2 = .element "body".toList [] [.text "x".toList] :=
  ⟨[ex "p" [] []], .insertText [0, 0] "x".toList none, _, _, by decide +kernel, rfl, rfl, rfl, rfl⟩

end Hotmeal
