import Verif.Props.Outcome
import Verif.Props.BrowserErrors
import Verif.Lemmas.RewriteBrowser

/-! # C90: the library and the client refuse the same patches

The library's `apply_patches` (dom.rs) and the client's `apply_patches` (hotmeal-wasm) are two programs. Here
one patch is given to both, on the same tree with the same slots: the library keeps the body in slot 0, the
client looks slot 0 up separately. -/

set_option autoImplicit false
set_option linter.unusedSectionVars false

namespace Hotmeal

variable {parse : Str → Document} {A : Arena NodeData} {slots : Slots} {root : Nat}

/-- The node is an element. -/
def Arena.IsElement (A : Arena NodeData) (n : Nat) : Prop := ∃ tag attrs, (A.data n).kind = .element tag attrs

/-- The node is a text or a comment. -/
def Arena.IsText (A : Arena NodeData) (n : Nat) : Prop :=
  (∃ s, (A.data n).kind = .text s) ∨ ∃ s, (A.data n).kind = .comment s

/-- The patch acts on the kind of node it is meant for: texts are set on texts and comments, content is inserted
into elements, opaque content is that of an element. A Remove names a node, by a position below a slot or by a
slot that is in use. -/
def Patch.Meant (A : Arena NodeData) (slots : Slots) : Patch → Prop
  | .setText path _ => ∀ n, Leads A slots path n → A.IsText n
  | .opaqueChanged path _ => ∀ n, Leads A slots path n → A.IsElement n
  | .insertElement at_ _ _ _ _ | .insertText at_ _ _ | .insertComment at_ _ _ =>
    ∀ q pos n, at_ = q ++ [pos] → Leads A slots q n → A.IsElement n
  | .remove path => path ≠ [] ∧ ∀ s, path = [s] → slots s ≠ none
  | _ => True

/-- The browser accepts the names in the patch. -/
def Patch.NamesOk (dom : WebDom) : Patch → Prop
  | .insertElement _ tag attrs cs _ => (InsertContent.element tag attrs cs).All dom.KeepsTag dom.KeepsName
  | .setAttribute _ name _ => dom.attrOk (Wasm.domName name) = true
  | .updateProps _ cs => ∀ c ∈ cs, ∀ q, c.name = .attr q → dom.attrOk (serName q) = true
  | _ => True

theorem asElement_of {n : Nat} (h : A.IsElement n) : Wasm.asElement A n = .ok n := by
  obtain ⟨tag, attrs, h⟩ := h
  simp only [Wasm.asElement, h]

theorem insertParent_of {q : Path} {n : Nat} (pos : Nat) (h : Leads A (Wasm.view root slots) q n) (he : A.IsElement n) :
    Wasm.insertParent root A slots (q ++ [pos]) = .ok (n, pos) := by
  unfold Wasm.insertParent
  have hl : ¬ (q ++ [pos]).length < 2 := by
    have := h.ne_nil
    cases q with
    | nil => exact absurd rfl this
    | cons a l => simp
  rw [if_neg hl]
  simp [List.getLast?_append, Wasm.findNode, h.navigate, bind, Except.bind, asElement_of he]

theorem insertParent_none {path : Path} {e : Err} (h : NoPoint A (Wasm.view root slots) path e) :
    Wasm.insertParent root A slots path = .error e := by
  unfold Wasm.insertParent
  cases h with
  | short h => rw [if_pos h]
  | @parent path i e hp h =>
    have : ¬ (path ++ [i]).length < 2 := by
      cases path with
      | nil => exact absurd rfl hp
      | cons a l => simp
    rw [if_neg this]
    simp [List.getLast?_append, Wasm.findNode, h.navigate, bind, Except.bind]

theorem updateAttrs_ok (dom : WebDom) (ns : Ns) (old : Attrs) (cs : List PropChange)
    (h : ∀ c ∈ cs, ∀ q, c.name = .attr q → dom.attrOk (serName q) = true) : ∃ a, dom.updateAttrs ns old cs = .ok a := by
  unfold WebDom.updateAttrs
  generalize WebDom.clearAttrs ns old = acc
  induction cs generalizing acc with
  | nil => exact ⟨_, rfl⟩
  | cons c cs ih =>
    rw [List.foldlM_cons]
    have hc := h c (by simp)
    have hr := fun acc => ih (fun c hc => h c (by simp [hc])) acc
    cases hn : c.name with
    | text => exact hr acc
    | attr q =>
      simp only [WebDom.setAttribute, hc q hn, if_true]
      exact hr _

theorem wasm_replaceByEmpty_ok (hA : A.WF) {n : Nat} (hn : n < A.next) : ∃ A', Wasm.replaceByEmpty A n = .ok A' := by
  unfold Wasm.replaceByEmpty
  cases hp : A.parent n with
  | none => exact ⟨_, rfl⟩
  | some p =>
    have hlt := hA.lt_of_parent _ _ hp
    have hw := hA.newNode Document.emptyText
    obtain ⟨A1, A', e1, e2, _⟩ := hA.replace hp Document.emptyText
    have hanc : (A.newNode Document.emptyText).1.isAncestorOrSelf A.next (A.newNode Document.emptyText).1.next p = false := by
      rw [Bool.eq_false_iff]
      intro hc
      have := desc_new hA (fun i _ => hA.newNode_parent Document.emptyText i) (Nat.le_refl _)
        ((hw.isAncestorOrSelf_iff _ _).1 hc)
      omega
    refine ⟨A', ?_⟩
    show Wasm.replaceChild (A.newNode Document.emptyText).1 p A.next n = _
    unfold Wasm.replaceChild
    rw [hanc]
    simp only [Bool.false_eq_true, if_false]
    rw [if_neg (by omega), e1]
    simp only [bind, Except.bind, e2]

/-- A patch that acts on the kind of node it is meant for and that the library refuses is refused by the client. -/
theorem Refused.page (dom : WebDom) {P : Patch} {e : Err} (h : Refused A (Wasm.view root slots) P e)
    (hm : ∀ f t s, P ≠ .move f t s) (hP : P.Meant A (Wasm.view root slots)) :
    dom.applyPatch root A slots P = .error e := by
  cases h with
  | @target _ path _ hp h =>
    have hn : Wasm.findNode root A slots path = .error e := h.navigate
    cases P <;> simp only [Patch.target, Option.some.injEq, reduceCtorEq] at hp <;> subst hp
    case move f t s => exact absurd rfl (hm _ _ _)
    case remove p =>
      obtain ⟨h1, h2⟩ := hP
      match p, h1, h2, h, hn with
      | [s], _, h2, h, _ =>
        exfalso
        obtain ⟨r, hr⟩ := Option.ne_none_iff_exists'.1 (h2 s rfl)
        have := h.navigate
        simp [navigate, hr, navLoop] at this
      | s :: i :: is, _, _, _, hn => simp only [WebDom.applyPatch, Wasm.applyPatch, hn, bind, Except.bind]
    all_goals simp only [WebDom.applyPatch, Wasm.applyPatch, hn, bind, Except.bind]
  | @point _ path _ hp h =>
    have hn := insertParent_none h
    cases P <;> simp only [Patch.insertionPoint, Option.some.injEq, reduceCtorEq] at hp <;> subst hp <;>
      simp only [WebDom.applyPatch, Wasm.applyPatch, hn, bind, Except.bind]
  | notText t h h1 h2 =>
    rcases hP _ h with ⟨s, hs⟩ | ⟨s, hs⟩
    · exact absurd hs (h1 s)
    · exact absurd hs (h2 s)
  | @notElementSet path n q v h h1 =>
    have hn : Wasm.findNode root A slots path = .ok n := h.navigate
    simp only [WebDom.applyPatch, hn, bind, Except.bind]
    rcases hd : A.data n with ⟨k, ns⟩
    rw [hd] at h1
    cases k with
    | element tag attrs => exact absurd rfl (h1 tag attrs)
    | _ => rfl
  | @notElementRemove path n q h h1 =>
    have hn : Wasm.findNode root A slots path = .ok n := h.navigate
    simp only [WebDom.applyPatch, hn, bind, Except.bind]
    rcases hd : A.data n with ⟨k, ns⟩
    rw [hd] at h1
    cases k with
    | element tag attrs => exact absurd rfl (h1 tag attrs)
    | _ => rfl

theorem page_insert (hA : A.WF) {B : Arena NodeData} (hg : Grows A B) {x : Nat} (hx : A.next ≤ x) (hx' : x < B.next)
    {p : Nat} (hp : p < A.next) (pos : Nat) (slot : Option Nat) :
    ∃ r, Wasm.insertAtPosition B slots p x pos slot = .ok r := by
  have hle := hg.le
  refine Wasm.insertAtPosition_fresh hg.wf slots pos slot (by omega) hx' ?_
  intro ha
  have := desc_new hA hg.parent hx ha
  omega

/-- A patch that acts on the kind of node it is meant for, with names the browser accepts, and that the library has no
reason to refuse, is applied by the client. -/
theorem page_applied (dom : WebDom) (hA : A.WF) (hroot : root < A.next) (hs : ∀ s r, slots s = some r → r < A.next)
    {P : Patch} (hm : ∀ f t s, P ≠ .move f t s) (hP : P.Meant A (Wasm.view root slots)) (hN : P.NamesOk dom)
    (hr : ∀ e, ¬ Refused A (Wasm.view root slots) P e) : ∃ r, dom.applyPatch root A slots P = .ok r := by
  have hs' : ∀ s r, Wasm.view root slots s = some r → r < A.next := by
    intro s r h
    unfold Wasm.view at h
    rw [Arena.upd_apply] at h
    split at h
    · cases h; exact hroot
    · exact hs s r h
  have hgr : Grows A A := ⟨hA, Nat.le_refl _, fun _ _ => rfl, fun _ _ => rfl, fun _ _ => rfl⟩
  have htarget : ∀ path, P.target = some path → ∃ n, Leads A (Wasm.view root slots) path n ∧ n < A.next ∧
      Wasm.findNode root A slots path = .ok n := by
    intro path hp
    rcases leads_total (A := A) (slots := Wasm.view root slots) path with ⟨n, hn⟩ | ⟨e, he⟩
    · exact ⟨n, hn, (leads_grows hA hs' hgr hn).1, hn.navigate⟩
    · exact absurd (.target hp he) (hr e)
  have hpoint : ∀ path, P.insertionPoint = some path → ∃ q p pos, path = q ++ [pos] ∧
      Leads A (Wasm.view root slots) q p ∧ p < A.next := by
    intro path hp
    rcases point_total (A := A) (slots := Wasm.view root slots) path with ⟨q, p, pos, e, hq⟩ | ⟨e, he⟩
    · exact ⟨q, p, pos, e, hq, (leads_grows hA hs' hgr hq).1⟩
    · exact absurd (.point hp he) (hr e)
  cases P with
  | insertElement at_ tag attrs children slot =>
    obtain ⟨q, p, pos, rfl, hq, hlt⟩ := hpoint _ rfl
    obtain ⟨B, m, e, hg, h1, h2, h3, _⟩ := Wasm.createInsertContent_builds (.element tag attrs children) A hA
    obtain ⟨r, hi⟩ := page_insert (slots := slots) hA hg h1 h2 hlt pos slot
    refine ⟨r, ?_⟩
    have e' : dom.createInsertContent A (.element tag attrs children) = .ok (B, m) := by
      rw [WebDom.createInsertContent_eq _ A hN]; exact e
    simp only [WebDom.applyPatch, insertParent_of pos hq (hP q pos p rfl hq), e', bind, Except.bind]
    exact hi
  | insertText at_ s slot =>
    obtain ⟨q, p, pos, rfl, hq, hlt⟩ := hpoint _ rfl
    obtain ⟨r, hi⟩ := page_insert (slots := slots) hA (Grows.newNode hA ⟨.text s, .html⟩) (Nat.le_refl _) (by simp) hlt pos slot
    refine ⟨r, ?_⟩
    simp only [WebDom.applyPatch, Wasm.applyPatch, insertParent_of pos hq (hP q pos p rfl hq), bind, Except.bind]
    exact hi
  | insertComment at_ s slot =>
    obtain ⟨q, p, pos, rfl, hq, hlt⟩ := hpoint _ rfl
    obtain ⟨r, hi⟩ := page_insert (slots := slots) hA (Grows.newNode hA ⟨.comment s, .html⟩) (Nat.le_refl _) (by simp) hlt pos slot
    refine ⟨r, ?_⟩
    simp only [WebDom.applyPatch, Wasm.applyPatch, insertParent_of pos hq (hP q pos p rfl hq), bind, Except.bind]
    exact hi
  | remove path =>
    obtain ⟨n, hn, hlt, hf⟩ := htarget _ rfl
    obtain ⟨B, e⟩ := wasm_replaceByEmpty_ok hA hlt
    obtain ⟨C, e'⟩ := wasm_replaceByEmpty_ok hA hroot
    match path, hf with
    | [], hf => exact absurd hf (by simp [Wasm.findNode, navigate])
    | [s], _ =>
      simp only [WebDom.applyPatch, Wasm.applyPatch]
      split
      · simp only [e', bind, Except.bind]; exact ⟨_, rfl⟩
      · exact ⟨_, rfl⟩
    | s :: i :: is, hf => 
      simp only [WebDom.applyPatch, Wasm.applyPatch, hf, e, bind, Except.bind]; exact ⟨_, rfl⟩
  | setText path s =>
    obtain ⟨n, hn, hlt, hf⟩ := htarget _ rfl
    simp only [WebDom.applyPatch, Wasm.applyPatch, hf, bind, Except.bind]; exact ⟨_, rfl⟩
  | setAttribute path q v =>
    obtain ⟨n, hn, hlt, hf⟩ := htarget _ rfl
    rcases hd : A.data n with ⟨k, ns⟩
    have hk : (A.data n).kind = k := by rw [hd]
    cases k with
    | element tag attrs =>
      have hN : dom.attrOk (Wasm.domName q) = true := hN
      simp only [WebDom.applyPatch, hf, hd, bind, Except.bind, WebDom.setAttribute, hN, if_true]; exact ⟨_, rfl⟩
    | _ => exact absurd (.notElementSet q v hn (by rw [hk]; simp)) (hr _)
  | removeAttribute path q =>
    obtain ⟨n, hn, hlt, hf⟩ := htarget _ rfl
    rcases hd : A.data n with ⟨k, ns⟩
    have hk : (A.data n).kind = k := by rw [hd]
    cases k with
    | element tag attrs =>
      simp only [WebDom.applyPatch, hf, hd, bind, Except.bind]; exact ⟨_, rfl⟩
    | _ => exact absurd (.notElementRemove q hn (by rw [hk]; simp)) (hr _)
  | move f t s => exact absurd rfl (hm f t s)
  | updateProps path cs =>
    obtain ⟨n, hn, hlt, hf⟩ := htarget _ rfl
    simp only [WebDom.applyPatch, hf, bind, Except.bind]
    split
    · next tag attrs ns _ =>
      obtain ⟨a, ha⟩ := updateAttrs_ok dom ns attrs cs hN
      rw [ha]; exact ⟨_, rfl⟩
    · exact ⟨_, rfl⟩
  | opaqueChanged path s =>
    obtain ⟨n, hn, hlt, hf⟩ := htarget _ rfl
    simp only [WebDom.applyPatch, Wasm.applyPatch, hf, asElement_of (hP n hn), bind, Except.bind]; exact ⟨_, rfl⟩

/-- **C90**, partial: a patch other than a Move that acts on the kind of node it is meant for, with names that the browser
accepts, is applied by both the library and the client or refused by both with the same error. Missing: the other patches,
for which it is false (`C90_violated_…`). -/
theorem C90_same_refusals_partial (dom : WebDom) (hA : A.WF) (hroot : root < A.next)
    (hs : ∀ s r, slots s = some r → r < A.next) (hparse : ∀ s, (parse s).arena.WF) {P : Patch}
    (hm : ∀ f t s, P ≠ .move f t s) (hP : P.Meant A (Wasm.view root slots)) (hN : P.NamesOk dom) :
    (∀ e, applyPatch parse A (Wasm.view root slots) P = .error e ↔ dom.applyPatch root A slots P = .error e) ∧
    ((∃ r, applyPatch parse A (Wasm.view root slots) P = .ok r) ↔ ∃ r, dom.applyPatch root A slots P = .ok r) := by
  have hs' : ∀ s r, Wasm.view root slots s = some r → r < A.next := by
    intro s r h
    unfold Wasm.view at h
    rw [Arena.upd_apply] at h
    split at h
    · cases h; exact hroot
    · exact hs s r h
  obtain ⟨h1, h2⟩ := C26_refused_iff (parse := parse) hA hs' hparse P hm
  by_cases hr : ∃ e, Refused A (Wasm.view root slots) P e
  · obtain ⟨e, he⟩ := hr
    have a := (h1 e).2 he
    have b := he.page dom hm hP
    rw [a, b]
    simp
  · have hr' : ∀ e, ¬ Refused A (Wasm.view root slots) P e := fun e he => hr ⟨e, he⟩
    obtain ⟨r, a⟩ := h2.2 hr'
    obtain ⟨r', b⟩ := page_applied dom hA hroot hs hm hP hN hr'
    rw [a, b]
    simp

/-! ### Moves -/

/-- A Move that is like those of a displaced node or of a node of the page: its node is not the root and, if it is named by
a slot, it hangs nowhere and the target is not in the same slot. Where the target exists once the node is taken out, it is
in an element that is not below the node. -/
structure MoveMeant (A : Arena NodeData) (slots : Slots) (root : Nat) (src dst : Path) : Prop where
  notRoot : src ≠ [0]
  free : ∀ s n, src = [s] → slots s = some n → A.parent n = none ∧ dst.head? ≠ some s
  inside : ∀ n A' q pos p, Leads A (Wasm.view root slots) src n → takeOut A src n = .ok A' → dst = q ++ [pos] →
    Leads A' (Wasm.view root slots) q p → A'.IsElement p ∧ ¬ A'.Anc n p

theorem insertParent_forget (A : Arena NodeData) (root : Nat) (slots : Slots) {s : Nat} {dst : Path}
    (h : dst.head? ≠ some s) :
    Wasm.insertParent root A (Arena.upd slots s none) dst = Wasm.insertParent root A slots dst := by
  unfold Wasm.insertParent
  split
  · rfl
  · next hl =>
    have : Wasm.findNode root A (Arena.upd slots s none) dst.dropLast = Wasm.findNode root A slots dst.dropLast := by
      match dst, h, hl with
      | a :: b :: l, h, _ =>
        simp only [List.dropLast_cons_cons, Wasm.findNode, navigate]
        have ha : a ≠ s := by simpa using h
        have : Wasm.view root (Arena.upd slots s none) a = Wasm.view root slots a := by
          simp only [Wasm.view, Arena.upd_apply, if_neg ha]
        rw [this]
      | [], _, hl => simp at hl
      | [a], _, hl => simp at hl
    rw [this]

/-- Taking a node out gives the same tree in the library and in the page. -/
theorem wasm_takeOut (hA : A.WF) {n p : Nat} (hp : A.parent n = some p) :
    Wasm.replaceByEmpty A n = replaceByEmpty A n := by
  have hlt := hA.lt_of_parent _ _ hp
  have hw := hA.newNode Document.emptyText
  obtain ⟨A1, A', e1, e2, _⟩ := hA.replace hp Document.emptyText
  have hanc : (A.newNode Document.emptyText).1.isAncestorOrSelf A.next (A.newNode Document.emptyText).1.next p = false := by
    rw [Bool.eq_false_iff]
    intro hc
    have := desc_new hA (fun i _ => hA.newNode_parent Document.emptyText i) (Nat.le_refl _)
      ((hw.isAncestorOrSelf_iff _ _).1 hc)
    omega
  unfold Wasm.replaceByEmpty
  rw [hp]
  show Wasm.replaceChild (A.newNode Document.emptyText).1 p A.next n =
    (do let B ← (A.newNode Document.emptyText).1.insertBefore n A.next; Except.ok (B.detach n))
  unfold Wasm.replaceChild
  rw [hanc]
  simp only [Bool.false_eq_true, if_false]
  rw [if_neg (by omega)]

/-- **C90**, partial, for Moves: a Move of a node other than the root, to a place in an element that is not below the
node, is applied by both the library and the client, and one whose node or target does not exist is refused by both with
the same error. Missing: the other Moves (`C90_violated_move`). -/
theorem C90_same_moves_partial (dom : WebDom) (hA : A.WF) (hroot : root < A.next)
    (hs : ∀ s r, slots s = some r → r < A.next) {src dst : Path} (slot : Option Nat)
    (hM : MoveMeant A slots root src dst) :
    (∀ e, applyPatch parse A (Wasm.view root slots) (.move src dst slot) = .error e ↔
      dom.applyPatch root A slots (.move src dst slot) = .error e) ∧
    ((∃ r, applyPatch parse A (Wasm.view root slots) (.move src dst slot) = .ok r) ↔
      ∃ r, dom.applyPatch root A slots (.move src dst slot) = .ok r) := by
  have hs' : ∀ s r, Wasm.view root slots s = some r → r < A.next := by
    intro s r h
    unfold Wasm.view at h
    rw [Arena.upd_apply] at h
    split at h
    · cases h; exact hroot
    · exact hs s r h
  have hview : ∀ s, s ≠ 0 → Wasm.view root slots s = slots s := fun s h => by
    simp only [Wasm.view, Arena.upd_apply, if_neg h]
  suffices key : (∃ e, applyPatch parse A (Wasm.view root slots) (.move src dst slot) = .error e ∧
      dom.applyPatch root A slots (.move src dst slot) = .error e) ∨
      ((∃ r, applyPatch parse A (Wasm.view root slots) (.move src dst slot) = .ok r) ∧
      ∃ r, dom.applyPatch root A slots (.move src dst slot) = .ok r) by
    rcases key with ⟨e, a, b⟩ | ⟨⟨r, a⟩, r', b⟩ <;> rw [a, b] <;> simp
  rcases leads_total (A := A) (slots := Wasm.view root slots) src with ⟨n, hn⟩ | ⟨e, he⟩
  · obtain ⟨A', e1, hw, hp, hbad, hgood, htot⟩ := C26_move_outcome (parse := parse) (to_ := dst) (slot := slot) hA hs' hn
    have hgr : Grows A A := ⟨hA, Nat.le_refl _, fun _ _ => rfl, fun _ _ => rfl, fun _ _ => rfl⟩
    have hnlt := (leads_grows hA hs' hgr hn).1
    have hle : A.next ≤ A'.next := by
      obtain ⟨B, e, _, h, _⟩ := takeOut_spec hA src hnlt
      rw [e1] at e; cases e; exact h
    -- what the client does first
    have hfirst : ∃ s2, Wasm.insertParent root A' s2 dst = Wasm.insertParent root A' slots dst ∧
        dom.applyPatch root A slots (.move src dst slot) = (do
          let (p, pos) ← Wasm.insertParent root A' s2 dst
          Wasm.insertAtPosition A' s2 p n pos slot) := by
      match src, hn, hM, e1 with
      | [], hn, _, _ => exact absurd rfl hn.ne_nil
      | [s], hn, hM, e1 =>
        have h0 : s ≠ 0 := by rintro rfl; exact hM.notRoot rfl
        have hsn : slots s = some n := by
          have := hn.navigate
          simp only [navigate, hview s h0] at this
          cases hss : slots s with
          | none => rw [hss] at this; cases this
          | some r => rw [hss] at this; simp only [navLoop, Except.ok.injEq] at this; rw [this]
        obtain ⟨hpn, hd⟩ := hM.free s n rfl hsn
        have : A' = A := by
          unfold takeOut at e1
          rw [if_neg (by simp), Arena.detach_of_parent_none hpn] at e1
          cases e1; rfl
        subst this
        refine ⟨Arena.upd slots s none, insertParent_forget _ _ _ hd, ?_⟩
        simp only [WebDom.applyPatch, Wasm.applyPatch, hsn, bind, Except.bind]
      | s :: i :: is, hn, _, e1 =>
        refine ⟨slots, rfl, ?_⟩
        have hf : Wasm.findNode root A slots (s :: i :: is) = .ok n := hn.navigate
        have hpar : ∃ p, A.parent n = some p := by
          obtain ⟨l, j, hl⟩ : ∃ l j, s :: i :: is = l ++ [j] := by
            rcases snoc_cases (s :: i :: is) with h | h
            · cases h
            · exact h
          rw [hl] at hn
          have hnav := hn.navigate
          have hlne : l ≠ [] := by
            rintro rfl
            simp at hl
          rw [navigate_append' l hlne] at hnav
          cases hl' : navigate A (Wasm.view root slots) l with
          | error e => rw [hl'] at hnav; cases hnav
          | ok p =>
            rw [hl'] at hnav
            simp only [Except.bind, navLoop] at hnav
            cases hc : (A.children p)[j]? with
            | none => rw [hc] at hnav; cases hnav
            | some c =>
              rw [hc] at hnav
              simp only [Except.ok.injEq] at hnav
              subst hnav
              exact ⟨p, (hA.mem_iff _ _).1 (List.mem_of_getElem? hc)⟩
        obtain ⟨p, hpar⟩ := hpar
        have e2 : Wasm.replaceByEmpty A n = .ok A' := by
          rw [wasm_takeOut hA hpar]
          unfold takeOut at e1
          rwa [if_pos (by simp)] at e1
        simp only [WebDom.applyPatch, Wasm.applyPatch, hf, e2, bind, Except.bind]
    obtain ⟨s2, hip, hrun⟩ := hfirst
    rcases htot with ⟨e, he⟩ | ⟨q, p, pos, hd, hl⟩
    · refine .inl ⟨e, hbad e he, ?_⟩
      rw [hrun, hip, insertParent_none he]; rfl
    · obtain ⟨hel, hna⟩ := hM.inside n A' q pos p hn e1 hd hl
      refine .inr ⟨hgood q p pos hd hl hna, ?_⟩
      have hs2 : ∀ s r, Wasm.view root slots s = some r → r < A'.next := fun s r h => Nat.lt_of_lt_of_le (hs' s r h) hle
      have hgr' : Grows A' A' := ⟨hw, Nat.le_refl _, fun _ _ => rfl, fun _ _ => rfl, fun _ _ => rfl⟩
      have hplt := (leads_grows hw hs2 hgr' hl).1
      rw [hrun, hip, hd, insertParent_of pos hl hel]
      exact Wasm.insertAtPosition_fresh hw s2 pos slot hplt (by omega) hna
  · refine .inl ⟨e, C26_bad_target parse rfl he, ?_⟩
    have hnav := he.navigate
    match src, hM, he, hnav with
    | [], _, _, hnav =>
      have hf : Wasm.findNode root A slots [] = .error e := hnav
      simp only [WebDom.applyPatch, Wasm.applyPatch, hf, bind, Except.bind]
    | [s], hM, _, hnav =>
      have h0 : s ≠ 0 := by rintro rfl; exact hM.notRoot rfl
      simp only [navigate, hview s h0] at hnav
      cases hss : slots s with
      | some r => rw [hss] at hnav; simp [navLoop] at hnav
      | none =>
        rw [hss] at hnav
        cases hnav
        simp only [WebDom.applyPatch, Wasm.applyPatch, hss, bind, Except.bind]
    | s :: i :: is, _, _, hnav =>
      have hf : Wasm.findNode root A slots (s :: i :: is) = .error e := hnav
      simp only [WebDom.applyPatch, Wasm.applyPatch, hf, bind, Except.bind]

/-! ### Where they differ -/

/-- The error of the library, if any. -/
def libError (cs : List Html) (ps : List Patch) : Option Err :=
  (applyPatchesKeep noParse (Document.ofForest cs) ps).2

/-- The error of the client, if any, in a browser that accepts every name. -/
def pageError (cs : List Html) (ps : List Patch) : Option Err :=
  (WebDom.lenient.applyPatchesKeep 2 (Document.ofForest cs).arena ps).2

/-- **C90** is violated by a SetText of an element: the library refuses it, the client replaces the children of the
element. -/
theorem C90_violated_text_of_element : ∃ cs, libError cs [.setText [0, 0] ['t']] = some .notATextNode ∧
    pageError cs [.setText [0, 0] ['t']] = none ∧
    ((WebDom.lenient.applyPatchesKeep 2 (Document.ofForest cs).arena [.setText [0, 0] ['t']]).1.tree 2).inner =
      "<b>t</b>".toList :=
  ⟨[ex "b" [] [ex "i" [] []]], by decide +kernel⟩

/-- **C90** is violated by inserts below a text and by opaque content of a text: the library applies them, the client
refuses them. -/
theorem C90_violated_below_text : ∃ cs, libError cs [.insertText [0, 0, 0] ['t'] none] = none ∧
    pageError cs [.insertText [0, 0, 0] ['t'] none] = some .notAnElement ∧
    libError cs [.opaqueChanged [0, 0] ['t']] = none ∧
    pageError cs [.opaqueChanged [0, 0] ['t']] = some .notAnElement :=
  ⟨[.text ['a']], by decide +kernel⟩

/-- **C90** is violated by the removal of a slot that is not in use: the client ignores it. -/
theorem C90_violated_unused_slot : ∃ cs, libError cs [.remove [7]] = some (.slotNotFound 7) ∧
    pageError cs [.remove [7]] = none :=
  ⟨[.text ['a']], by decide +kernel⟩

/-- **C90** is violated by a Move of slot 0: the library panics when the body is to be moved into itself, the client
reports that the slot is not in use. It is also violated by a Move of a slot twice, which the library allows. -/
theorem C90_violated_move : ∃ cs, libError cs [.move [0] [0, 0] none] = some .panic ∧
    pageError cs [.move [0] [0, 0] none] = some (.slotNotFound 0) ∧
    libError cs [.insertText [0, 0] ['t'] (some 1), .move [1] [0, 1] none, .move [1] [0, 2] none] = none ∧
    pageError cs [.insertText [0, 0] ['t'] (some 1), .move [1] [0, 1] none, .move [1] [0, 2] none] =
      some (.slotNotFound 1) :=
  ⟨[.text ['a']], by decide +kernel⟩

/-- **C90** is violated by names that the browser rejects: the library sets the attribute, the client reports an error. -/
theorem C90_violated_names (dom : WebDom) (name : QualName) (v : Str) (h : dom.attrOk (Wasm.domName name) = false)
    {path : Path} {n : Nat} (hl : Leads A (Wasm.view root slots) path n) (he : A.IsElement n) :
    dom.applyPatch root A slots (.setAttribute path name v) = .error .invalidName ∧
    ∃ r, applyPatch parse A (Wasm.view root slots) (.setAttribute path name v) = .ok r := by
  have hf : Wasm.findNode root A slots path = .ok n := hl.navigate
  obtain ⟨tag, attrs, hk⟩ := he
  rcases hd : A.data n with ⟨k, ns⟩
  rw [hd] at hk
  simp only at hk
  subst hk
  refine ⟨?_, ?_⟩
  · simp only [WebDom.applyPatch, hf, hd, bind, Except.bind, WebDom.setAttribute, h, Bool.false_eq_true, if_false]
  · simp only [applyPatch, hl.navigate, hd, bind, Except.bind]
    exact ⟨_, rfl⟩

/-! ### Concrete cases -/

/-- The hypotheses of `C90_same_refusals_partial` hold for patches that are applied and for patches that are refused. -/
example :
    let D := Document.ofForest [ex "b" [] [.text "x".toList], .text "y".toList]
    D.arena.WF ∧ 2 < D.arena.next ∧ (∀ s, (noParse s).arena.WF) ∧
    (Patch.setText [0, 1] ['z']).Meant D.arena (Wasm.view 2 fun _ => none) ∧
    (Patch.setText [0, 7] ['z']).Meant D.arena (Wasm.view 2 fun _ => none) ∧
    (Patch.insertText [0, 0, 5] ['z'] none).Meant D.arena (Wasm.view 2 fun _ => none) ∧
    libError [ex "b" [] [.text "x".toList], .text "y".toList] [.setText [0, 1] ['z']] = none ∧
    pageError [ex "b" [] [.text "x".toList], .text "y".toList] [.setText [0, 1] ['z']] = none ∧
    libError [ex "b" [] [.text "x".toList], .text "y".toList] [.setText [0, 7] ['z']] = some (.pathOutOfBounds 7) ∧
    pageError [ex "b" [] [.text "x".toList], .text "y".toList] [.setText [0, 7] ['z']] = some (.pathOutOfBounds 7) := by
  refine ⟨(ofForest_valid _ (by decide +kernel)).wf, by decide +kernel, fun _ => Document.new_sound.arena.wf, ?_, ?_, ?_,
    by decide +kernel, by decide +kernel, by decide +kernel, by decide +kernel⟩
  · intro n hn
    have h : navigate (Document.ofForest [ex "b" [] [.text "x".toList], .text "y".toList]).arena
        (Wasm.view 2 fun _ => none) [0, 1] = .ok 5 := by rfl
    rw [hn.navigate] at h
    cases h
    exact .inl ⟨"y".toList, by rfl⟩
  · intro n hn
    have h : navigate (Document.ofForest [ex "b" [] [.text "x".toList], .text "y".toList]).arena
        (Wasm.view 2 fun _ => none) [0, 7] = .error (.pathOutOfBounds 7) := by rfl
    rw [hn.navigate] at h
    cases h
  · intro q pos n e hn
    have hq : q = [0, 0] := by
      have := congrArg List.dropLast e
      simpa using this.symm
    subst hq
    have h : navigate (Document.ofForest [ex "b" [] [.text "x".toList], .text "y".toList]).arena
        (Wasm.view 2 fun _ => none) [0, 0] = .ok 3 := by rfl
    rw [hn.navigate] at h
    cases h
    exact ⟨"b".toList, [], by rfl⟩

/-- `MoveMeant` holds for a Move to another element, which is applied. -/
example :
    let D := Document.ofForest [ex "b" [] [.text "x".toList], .text "y".toList]
    MoveMeant D.arena (fun _ => none) 2 [0, 1] [0, 0, 0] ∧
    libError [ex "b" [] [.text "x".toList], .text "y".toList] [.move [0, 1] [0, 0, 0] (some 1)] = none ∧
    pageError [ex "b" [] [.text "x".toList], .text "y".toList] [.move [0, 1] [0, 0, 0] (some 1)] = none := by
  refine ⟨⟨by simp, fun s n h => by simp at h, ?_⟩, by decide +kernel, by decide +kernel⟩
  intro n A' q pos p hn ht hd hl
  have h : navigate (Document.ofForest [ex "b" [] [.text "x".toList], .text "y".toList]).arena
      (Wasm.view 2 fun _ => none) [0, 1] = .ok 5 := by rfl
  rw [hn.navigate] at h
  cases h
  have hq : q = [0, 0] := by
    have := congrArg List.dropLast hd
    simpa using this.symm
  subst hq
  have hw : (Document.ofForest [ex "b" [] [.text "x".toList], .text "y".toList]).arena.WF :=
    (ofForest_valid _ (by decide +kernel)).wf
  obtain ⟨B, e, hr⟩ := replaceByEmpty_repl hw (n := 5) (p := 2) (by rfl)
  have : A' = B := by
    have : takeOut (Document.ofForest [ex "b" [] [.text "x".toList], .text "y".toList]).arena [0, 1] 5 = .ok B := e
    rw [ht] at this; cases this; rfl
  subst this
  have h2 := hl.navigate
  have hc : A'.children 2 = [3, 6] := by rw [hr.children]; rfl
  simp only [navigate, Wasm.view, Arena.upd_apply, if_true, navLoop, hc] at h2
  cases h2
  refine ⟨⟨"b".toList, [], ?_⟩, ?_⟩
  · rw [hr.data]; rfl
  · have p3 : A'.parent 3 = some 2 := by rw [hr.parent]; rfl
    have p2 : A'.parent 2 = some 0 := by rw [hr.parent]; rfl
    have p0 : A'.parent 0 = none := by rw [hr.parent]; rfl
    intro ha
    cases ha with
    | step h1 ha =>
      rw [p3] at h1; cases h1
      cases ha with
      | step h1 ha =>
        rw [p2] at h1; cases h1
        cases ha with
        | step h1 _ => rw [p0] at h1; cases h1

end Hotmeal
