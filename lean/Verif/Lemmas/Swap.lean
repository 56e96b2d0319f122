import Verif.Lemmas.Browser

set_option autoImplicit false
set_option linter.unusedSectionVars false

/-!
# The native applier, changed to replace like the browser

When a patch without slot puts a node where there already is one (which happens only with surplus
empty text nodes), the library inserts before it, the browser client replaces it. `swapStep` is the
native applier with slots cleared after use that replaces. It is lawful too.
-/

namespace Hotmeal

/-- The slot that gets the displaced node. -/
def Patch.slot : Patch → Option Nat
  | .insertElement _ _ _ _ s => s
  | .insertText _ _ s => s
  | .insertComment _ _ s => s
  | .move _ _ s => s
  | _ => none

/-- The patch with slot 1 where it has none. -/
def Patch.withSlot : Patch → Patch
  | .insertElement a t at_ cs none => .insertElement a t at_ cs (some 1)
  | .insertText a t none => .insertText a t (some 1)
  | .insertComment a t none => .insertComment a t (some 1)
  | .move a t none => .move a t (some 1)
  | P => P

/-- The slots after `occ` went to the given slot, if any. -/
def displaced (s : Slots) (occ : Nat) : Option Nat → Slots
  | some k => Arena.upd s k (some occ)
  | none => s

/-- `forgetStep`, but a displaced node is dropped when the patch has no slot. -/
def swapStep (parse : Str → Document) : StepFn := fun D s P =>
  match P.slot with
  | some _ => forgetStep parse D s P
  | none => match applyPatch parse D s P.withSlot with
    | .ok (D', _) => .ok (D', forget s P s)
    | .error e => .error e

theorem DPut.toApp {D D' : Arena NodeData} {x p pos occ : Nat} (h : DPut D D' x p pos occ) :
    DApp D D' x p pos := by
  have hlt : pos < (D.children p).length := (List.getElem?_eq_some_iff.1 h.at_).1
  have hz : pos - (D.children p).length = 0 := by omega
  refine ⟨h.wf, by rw [h.next, hz]; rfl, fun m hm => by rw [h.children, if_neg hm],
    ⟨(D.children p).drop (pos + 1), ?_, ?_⟩, ?_⟩
  · rw [List.drop_eq_getElem_cons hlt]; exact List.suffix_cons _ _
  · rw [h.children, if_pos rfl, hz, List.set_eq_take_append_cons_drop, if_pos hlt]
    simp
  · intro m; rw [h.data, if_neg (by rw [h.next]; omega)]

theorem insertAt_noocc {D : Arena NodeData} {slots : Slots} {q : Path} {x p pos k : Nat}
    (hq : navigate D slots q = .ok p) (hocc : (D.children p)[pos]? = none) :
    insertAt D slots (q ++ [pos]) x (some k) = insertAt D slots (q ++ [pos]) x none := by
  unfold insertAt
  simp only [slotParent_append hq, bind, Except.bind, displace, hocc]

/-- What `swapStep` does with an insert patch. -/
theorem swapStep_insert (parse : Str → Document) {D D1 : Arena NodeData} {s : Slots} {q : Path}
    {nk : NodeKind} {cs : List InsertContent} {p pos : Nat} (hw : D.WF)
    (hcr : Created D D1 ⟨nk, .html⟩)
    (hap : ∀ s at_ slot, applyPatch parse D s (insertPatch at_ nk cs slot) =
      insertAt D1 s at_ D.next slot) (hq : navigate D s q = .ok p)
    (hp : p < D.next) (slot : Option Nat) :
    (∀ occ, (D.children p)[pos]? = some occ → ∃ D',
      swapStep parse D s (insertPatch (q ++ [pos]) nk cs slot) =
        .ok (D', displaced s occ slot) ∧
      DPut D1 D' D.next p pos occ) ∧
    (slot = none → (D.children p)[pos]? = none → ∃ D',
      swapStep parse D s (insertPatch (q ++ [pos]) nk cs slot) = .ok (D', s) ∧
      DApp D1 D' D.next p pos) := by
  have hq' : navigate D1 s q = .ok p := hcr.navigate hw hq
  have hch := hcr.children p hp
  have e1 : ∀ k, swapStep parse D s (insertPatch (q ++ [pos]) nk cs (some k)) =
      insertAt D1 s (q ++ [pos]) D.next (some k) := by
    intro k
    have : swapStep parse D s (insertPatch (q ++ [pos]) nk cs (some k)) =
        forgetStep parse D s (insertPatch (q ++ [pos]) nk cs (some k)) := by cases nk <;> rfl
    rw [this, forgetStep_insertPatch, hap]
  have e2 : swapStep parse D s (insertPatch (q ++ [pos]) nk cs none) =
      match insertAt D1 s (q ++ [pos]) D.next (some 1) with
      | .ok (D', _) => .ok (D', s)
      | .error e => .error e := by
    rw [← hap]
    cases nk <;> rfl
  constructor
  · intro occ hocc
    rw [← hch] at hocc
    cases slot with
    | some k =>
      rw [e1]
      exact insertAt_put hcr.wf hq' hocc hcr.next_lt hcr.self (hcr.not_anc hw hp)
    | none =>
      obtain ⟨D', e, h⟩ := insertAt_put (k := 1) hcr.wf hq' hocc
        hcr.next_lt hcr.self (hcr.not_anc hw hp)
      exact ⟨D', by rw [e2, e]; rfl, h⟩
  · rintro rfl hocc
    rw [← hch] at hocc
    obtain ⟨D', e, h⟩ := insertAt_app (pos := pos) hcr.wf hq'
      (Nat.lt_trans hp hcr.next_lt) hcr.next_lt hcr.self (hcr.not_anc hw hp)
    exact ⟨D', by rw [e2, insertAt_noocc hq' hocc, e], h⟩

/-- What `swapStep` does with a move patch. -/
theorem swapStep_move (parse : Str → Document) {D : Arena NodeData} {s : Slots} {q : Path} {n : Nat}
    (hw : D.WF) (hq : navigate D s q = .ok n) (hn : n < D.next)
    (hcase : (1 < q.length ∧ ∃ p, D.parent n = some p) ∨
      (q.length = 1 ∧ q ≠ [0] ∧ D.parent n = none)) :
    ∃ D1 s1, Taken D s q n D1 s1 ∧
      ((1 < q.length ∧ s1 = s) ∨ (∃ k, q = [k] ∧ s1 = Arena.upd s k none)) ∧
      ∀ q' p pos slot, navigate D1 s1 q' = .ok p → p < D1.next → ¬ D1.Anc n p →
      (∀ occ, (D1.children p)[pos]? = some occ → ∃ D',
        swapStep parse D s (.move q (q' ++ [pos]) slot) =
          .ok (D', displaced s1 occ slot) ∧
        DPut D1 D' n p pos occ) ∧
      (slot = none → (D1.children p)[pos]? = none → ∃ D',
        swapStep parse D s (.move q (q' ++ [pos]) slot) = .ok (D', s1) ∧ DApp D1 D' n p pos) := by
  rcases hcase with ⟨hl, p0, hp0⟩ | ⟨hl, hq0, hp0⟩
  · obtain ⟨D1, e1, hr⟩ := replaceByEmpty_repl hw hp0
    have hfo : ∀ to sl s', forget s (.move q to sl) s' = s' := by
      intro to sl s'
      match q, hl with
      | a :: b :: c, _ => rfl
    have hn1 : n < D1.next := by rw [hr.next]; omega
    have hfree : D1.parent n = none := by rw [hr.parent, if_pos rfl]
    have ap : ∀ to sl, applyPatch parse D s (.move q to sl) = insertAt D1 s to n sl := by
      intro to sl
      simp only [applyPatch, hq, bind, Except.bind, if_pos hl, e1]
    refine ⟨D1, s, .inl ⟨hl, rfl, fun p hp => ?_⟩, .inl ⟨hl, rfl⟩, ?_⟩
    · rw [hp0] at hp; cases hp; exact hr
    intro q' p pos slot hq' hp' ha
    constructor
    · intro occ hocc
      cases slot with
      | some k =>
        obtain ⟨D', e, h⟩ := insertAt_put (k := k) hr.wf hq' hocc hn1 hfree ha
        exact ⟨D', by simp only [swapStep, Patch.slot, forgetStep, ap, e, hfo, displaced], h⟩
      | none =>
        obtain ⟨D', e, h⟩ := insertAt_put (k := 1) hr.wf hq' hocc hn1 hfree ha
        exact ⟨D', by simp only [swapStep, Patch.slot, Patch.withSlot, ap, e, hfo, displaced], h⟩
    · rintro rfl hocc
      obtain ⟨D', e, h⟩ := insertAt_app (pos := pos) hr.wf hq' hp' hn1 hfree ha
      exact ⟨D', by simp only [swapStep, Patch.slot, Patch.withSlot, ap, insertAt_noocc hq' hocc, e,
        hfo], h⟩
  · have hl' : ¬ 1 < q.length := by omega
    obtain ⟨k0, rfl⟩ : ∃ k, q = [k] := by
      match q, hl with
      | [k], _ => exact ⟨k, rfl⟩
    have hk0 : k0 ≠ 0 := by rintro rfl; exact hq0 rfl
    have hs0 : s k0 = some n := by
      simp only [navigate] at hq
      cases e : s k0 with
      | none => rw [e] at hq; cases hq
      | some m => rw [e] at hq; cases hq; rfl
    have hle : SlotsLe (Arena.upd s k0 none) s := by
      intro i m hi
      rw [Arena.upd_apply] at hi
      split at hi
      · cases hi
      · exact hi
    have ap : ∀ to sl, applyPatch parse D s (.move [k0] to sl) = insertAt D s to n sl := by
      intro to sl
      simp only [applyPatch, hq, bind, Except.bind, if_neg hl', Arena.detach_of_parent_none hp0]
    have hfo : ∀ to sl, forget s (.move [k0] to sl) s = Arena.upd s k0 none := by
      intro to sl
      simp only [forget, if_neg hk0]
      funext i
      simp only [Arena.upd_apply, and_true]
    refine ⟨D, Arena.upd s k0 none, .inr ⟨k0, rfl, rfl, .inr rfl⟩, .inr ⟨k0, rfl, rfl⟩, ?_⟩
    intro q' p pos slot hq' hp' ha
    have hq2 := navigate_mono hle hq'
    constructor
    · intro occ hocc
      cases slot with
      | some k =>
        obtain ⟨D', e, h⟩ := insertAt_put (k := k) hw hq2 hocc hn hp0 ha
        refine ⟨D', ?_, h⟩
        simp only [swapStep, Patch.slot, forgetStep, ap, e, forget, if_neg hk0, displaced]
        congr 2
        funext i
        have hne : occ ≠ n := by
          rintro rfl
          rw [(hw.mem_iff _ _).1 (List.mem_of_getElem? hocc)] at hp0; cases hp0
        simp only [Arena.upd_apply]
        by_cases e1 : i = k0
        · subst e1
          by_cases e2 : i = k
          · simp only [e2, true_and, if_true]
            rw [if_neg]
            rw [← e2, hs0]; simpa using hne
          · simp [e2]
        · simp [e1]
      | none =>
        obtain ⟨D', e, h⟩ := insertAt_put (k := 1) hw hq2 hocc hn hp0 ha
        exact ⟨D', by simp only [swapStep, Patch.slot, Patch.withSlot, ap, e, hfo, displaced], h⟩
    · rintro rfl hocc
      obtain ⟨D', e, h⟩ := insertAt_app (pos := pos) hw hq2 hp' hn hp0 ha
      exact ⟨D', by simp only [swapStep, Patch.slot, Patch.withSlot, ap, insertAt_noocc hq2 hocc, e,
        hfo], h⟩

theorem swapStep_removeFree (parse : Str → Document) {D : Arena NodeData} {slots : Slots}
    {k n : Nat} (hw : D.WF) (hk : k ≠ 0) (hs : slots k = some n) (hn : n < D.next)
    (hp : D.parent n = none) : swapStep parse D slots (.remove [k]) =
      .ok ((D.newNode Document.emptyText).1, Arena.upd slots k none) := by
  simp only [swapStep, Patch.slot, Patch.withSlot, applyPatch, Hotmeal.navigate, hs, navLoop, bind,
    Except.bind, replaceByEmpty_free hw hn hp, forget, if_neg hk]

/-- The native applier that replaces is lawful. -/
theorem lawful_swap (parse : Str → Document) (root : Nat) : Lawful root (swapStep parse) where
  setText_text := by
    intro D slots q n s ns t h0 hq hd
    simp only [swapStep, Patch.slot, Patch.withSlot,
      (lawful_native parse root).setText_text D slots q n s ns t h0 hq hd, forget]
  setText_comment := by
    intro D slots q n s ns t h0 hq hd
    simp only [swapStep, Patch.slot, Patch.withSlot,
      (lawful_native parse root).setText_comment D slots q n s ns t h0 hq hd, forget]
  updateProps := by
    intro D slots q n tag attrs ns changes h0 hq hd h1 h2 h3
    simp only [swapStep, Patch.slot, Patch.withSlot,
      (lawful_native parse root).updateProps D slots q n tag attrs ns changes h0 hq hd h1 h2 h3,
      forget]
  remove := by
    intro D slots q n p h0 hw hq hl hp
    obtain ⟨D', e, hr⟩ := (lawful_native parse root).remove D slots q n p h0 hw hq hl hp
    refine ⟨D', ?_, hr⟩
    simp only [swapStep, Patch.slot, Patch.withSlot, e]
    match q, hl with
    | a :: b :: c, _ => rfl
  removeFree := by
    intro D slots k n h0 hw hk hs hn hp
    exact ⟨_, _, swapStep_removeFree parse hw hk hs hn hp, .inr rfl, .inr rfl⟩
  insert := by
    intro D slots q nk cs p h0 hw hnk hcs hq he hp
    obtain ⟨D1, hcr, hf, hns, hap⟩ := applyPatch_insertPatch parse hw hnk hcs
    refine ⟨D1, hcr, hf, hns, ?_, ?_⟩
    · intro pos occ k _ hocc
      exact (swapStep_insert parse hw hcr hap hq hp (some k)).1 occ hocc
    · intro pos
      obtain ⟨h1, h2⟩ := swapStep_insert (pos := pos) parse hw hcr hap hq hp none
      cases e : (D.children p)[pos]? with
      | none => exact h2 rfl e
      | some occ =>
        obtain ⟨D', e', h⟩ := h1 occ e
        exact ⟨D', e', h.toApp⟩
  move := by
    intro D slots q n h0 hw hq hn hcase
    obtain ⟨D1, s1, ht, _, hall⟩ := swapStep_move parse hw hq hn hcase
    refine ⟨D1, s1, ht, ?_, ?_⟩
    · intro q' p' pos occ k hk hq' he hp' ha hocc
      exact (hall q' p' pos (some k) hq' hp' ha).1 occ hocc
    · intro q' p' pos hq' he hp' ha
      obtain ⟨h1, h2⟩ := hall q' p' pos none hq' hp' ha
      cases e : (D1.children p')[pos]? with
      | none => exact h2 rfl e
      | some occ =>
        obtain ⟨D', e', h⟩ := h1 occ e
        exact ⟨D', e', h.toApp⟩

namespace Agree

variable {N : QualName → Prop} {root eb : Nat} {φ : Nat → Nat} {L J : Nat → Prop}
  {D D' E E' : Arena NodeData} {s s' t : Slots}

/-- A free node `x` is put at its place on both sides, replacing what is there. -/
theorem swapPlace (h : Agree N root eb φ L D s E t) {x p pos : Nat}
    {slot : Option Nat} (hx : L x) (hxp : D.parent x = none) (hp : L p) (hanc : ¬ D.Anc x p)
    (ha : AtPos J D p pos slot) {D' : Arena NodeData} {s' : Slots}
    (hput : ∀ occ, (D.children p)[pos]? = some occ →
      DPut D D' x p pos occ ∧ s' = displaced s occ slot)
    (happ : slot = none → (D.children p)[pos]? = none → DApp D D' x p pos ∧ s' = s) :
    ∃ φ' L' E' t', Wasm.insertAtPosition E t (φ p) (φ x) pos slot = .ok (E', t') ∧
      Agree N root eb φ' L' D' s' E' t' ∧ ∀ n, L n → L' n ∧ φ' n = φ n := by
  have hxe := h.free x hx hxp
  have hance : ¬ E.Anc (φ x) (φ p) := fun h' => hanc (h.anc hx hp h')
  cases hocc : (D.children p)[pos]? with
  | some occ =>
    obtain ⟨hd, rfl⟩ := hput occ hocc
    have hoe : (E.children (φ p))[pos]? = some (φ occ) := by
      rw [h.kids p hp, List.getElem?_map, hocc]; rfl
    obtain ⟨E', e, hde⟩ := Wasm.replaceChild_put h.ewf hoe (h.elt x hx) hxe hance
    have hput' := h.put hx hp hd hde
    cases slot with
    | none =>
      refine ⟨φ, L, E', t, ?_, hput', fun n hn => ⟨hn, rfl⟩⟩
      unfold Wasm.insertAtPosition
      simp only [hoe, e, bind, Except.bind]
    | some k =>
      have hk : k ≠ 0 := by
        rcases ha with ⟨k', occ', e', hk, _⟩ | ⟨e', _⟩
        · cases e'; exact hk
        · cases e'
      refine ⟨φ, L, E', Arena.upd t k (some (φ occ)), ?_, ?_, fun n hn => ⟨hn, rfl⟩⟩
      · unfold Wasm.insertAtPosition
        simp only [hoe, e, bind, Except.bind]
      · exact hput'.setSlot hk (h.down p occ hp (List.mem_of_getElem? hocc))
  | none =>
    have hsl : slot = none := by
      rcases ha with ⟨k', occ', e', hk, ho⟩ | ⟨e', _⟩
      · rw [hocc] at ho; cases ho
      · exact e'
    subst hsl
    obtain ⟨hd, rfl⟩ := happ rfl hocc
    have hlen : (D.children p).length ≤ pos := List.getElem?_eq_none_iff.1 hocc
    have hle : (E.children (φ p)).length = (D.children p).length := by
      rw [h.kids p hp, List.length_map]
    obtain ⟨E', e, hde⟩ := Wasm.fill_append_app h.ewf (h.elt p hp) (h.elt x hx) hxe hance
      (pos := pos) (by omega)
    refine ⟨_, _, E', t, ?_, h.app hx hp hlen hd hde, fun n hn => ⟨.inl hn, h.ext_old _ hn⟩⟩
    unfold Wasm.insertAtPosition
    rw [List.getElem?_eq_none (by omega)]
    simp only [e, bind, Except.bind]

/-- **The step**, with surplus nodes: what the browser does with a regular patch is what `swapStep`
does. -/
theorem swapStep (hN : PlainNames N) (parse : Str → Document) (h : Agree N root eb φ L D s E t)
    {P : Patch} (hr : Regular J D s P) (hP : P.Names N)
    (hs : swapStep parse D s P = .ok (D', s')) :
    ∃ φ' L' E' t', Wasm.applyPatch eb E t P = .ok (E', t') ∧
      Agree N root eb φ' L' D' s' E' t' ∧ ∀ n, L n → L' n ∧ φ' n = φ n := by
  have hlaw := lawful_swap parse root
  cases hr with
  | setText q n s0 ns tx hq hd =>
    have hr' : Regular (fun _ => False) D s (.setText q tx) := .setText q n s0 ns tx hq hd
    suffices e : Hotmeal.forgetStep parse D s (.setText q tx) = .ok (D', s') by
      exact h.step hN parse (fun _ h => h) hr' hP e
    rw [← hs]
    rcases hd with hd | hd
    · rw [hlaw.setText_text D s q n s0 ns tx h.s0 hq hd,
        (lawful_forget parse root).setText_text D s q n s0 ns tx h.s0 hq hd]
    · rw [hlaw.setText_comment D s q n s0 ns tx h.s0 hq hd,
        (lawful_forget parse root).setText_comment D s q n s0 ns tx h.s0 hq hd]
  | updateProps q n tag attrs ns changes hq hd hk hn ht =>
    have hr' : Regular (fun _ => False) D s (.updateProps q changes) :=
      .updateProps q n tag attrs ns changes hq hd hk hn ht
    suffices e : Hotmeal.forgetStep parse D s (.updateProps q changes) = .ok (D', s') by
      exact h.step hN parse (fun _ h => h) hr' hP e
    rw [← hs, hlaw.updateProps D s q n tag attrs ns changes h.s0 hq hd hk hn ht,
      (lawful_forget parse root).updateProps D s q n tag attrs ns changes h.s0 hq hd hk hn ht]
  | remove q n p hq hl hp =>
    obtain ⟨hn, hqe, hpar⟩ := h.navigate hq
    obtain ⟨p', hp', hpL⟩ := hpar hl
    rw [hp] at hp'; cases hp'
    obtain ⟨D1, e1, hr⟩ := hlaw.remove D s q n p h.s0 h.dwf hq hl hp
    rw [e1] at hs; cases hs
    obtain ⟨E', e2, hre⟩ := Wasm.replaceByEmpty_repl h.ewf (h.parent hpL hp)
    refine ⟨_, _, E', t, ?_, h.replaced hn hpL hr hre, fun m hm => ⟨.inl hm, h.ext_old 1 hm⟩⟩
    match q, hl with
    | a :: b :: c, _ => simp only [Wasm.applyPatch, hqe, bind, Except.bind, e2]
  | removeFree k n hk hsk hn hp =>
    rw [swapStep_removeFree parse h.dwf hk hsk hn hp] at hs
    cases hs
    refine ⟨φ, L, E, Arena.upd t k none, ?_, (h.newD _).clearSlot hk, fun n hn => ⟨hn, rfl⟩⟩
    simp only [Wasm.applyPatch, if_neg hk]
  | insert q nk cs p pos slot hc hcs hq he hp ha =>
    obtain ⟨hpL, hqe, _⟩ := h.navigate hq
    have hee := KindSim.isElement (h.data p hpL) he
    have hP' : (insertPatch [] nk cs none).Names N := by
      cases nk <;> exact hP
    obtain ⟨D1, φ1, L1, E1, hcr, en, ew, h1, hx, hext⟩ := h.created hN parse hc hcs hP'
    obtain ⟨hp1, hpe⟩ := hext p hpL
    rw [ew q (φ p) pos slot hqe hee, ← hpe]
    obtain ⟨g1, g2⟩ := swapStep_insert (pos := pos) parse h.dwf hcr en hq hp slot
    have hch := hcr.children p hp
    suffices hgoal : ∃ φ' L' E' t', Wasm.insertAtPosition E1 t (φ1 p) (φ1 D.next) pos slot = .ok (E', t') ∧
        Agree N root eb φ' L' D' s' E' t' ∧ ∀ n, L1 n → L' n ∧ φ' n = φ1 n by
      obtain ⟨φ', L', E', t', k1, k2, k3⟩ := hgoal
      refine ⟨φ', L', E', t', k1, k2, fun n hn => ?_⟩
      obtain ⟨i1, i2⟩ := hext n hn
      exact ⟨(k3 n i1).1, (k3 n i1).2.trans i2⟩
    refine h1.swapPlace (J := J) (x := D.next) (p := p) (pos := pos) (slot := slot) hx hcr.self hp1
      (hcr.not_anc h.dwf hp) (by unfold AtPos at ha ⊢; rw [hch]; exact ha) ?_ ?_
    · intro occ hocc
      rw [hch] at hocc
      obtain ⟨D2, e1, hput⟩ := g1 occ hocc
      rw [e1] at hs; cases hs
      exact ⟨hput, rfl⟩
    · intro e hocc
      rw [hch] at hocc
      obtain ⟨D2, e1, happ⟩ := g2 e hocc
      rw [e1] at hs; cases hs
      exact ⟨happ, rfl⟩
  | move q n q' p pos slot hq hn hc hm =>
    obtain ⟨hnL, hqe, hpar⟩ := h.navigate hq
    obtain ⟨D1, s1, ht, hs1, hall⟩ := swapStep_move parse h.dwf hq hn hc
    obtain ⟨m1, m2, m3, m4, m5⟩ := hm D1 s1 ht
    obtain ⟨g1, g2⟩ := hall q' p pos slot m1 m3 m4
    -- the browser after taking the node out
    have htake : ∃ φ1 L1 E1 t1, Agree N root eb φ1 L1 D1 s1 E1 t1 ∧ L1 n ∧ φ1 n = φ n ∧
        D1.parent n = none ∧ (∀ m, L m → L1 m ∧ φ1 m = φ m) ∧
        ∀ to sl, Wasm.applyPatch eb E t (.move q to sl) = (do
          let (p, pos) ← Wasm.insertParent eb E1 t1 to
          Wasm.insertAtPosition E1 t1 p (φ n) pos sl) := by
      rcases hs1 with ⟨hl, rfl⟩ | ⟨k0, rfl, rfl⟩
      · obtain ⟨p0, hp0, hp0L⟩ := hpar hl
        have hr : D.Replaced D1 n p0 Document.emptyText := by
          rcases ht with ⟨_, _, hrep⟩ | ⟨k, rfl, _⟩
          · exact hrep p0 hp0
          · simp at hl
        obtain ⟨E1, e2, hre⟩ := Wasm.replaceByEmpty_repl h.ewf (h.parent hp0L hp0)
        refine ⟨_, _, E1, t, h.replaced hnL hp0L hr hre, .inl hnL, h.ext_old 1 hnL, ?_,
          fun m hm => ⟨.inl hm, h.ext_old 1 hm⟩, ?_⟩
        · rw [hr.parent, if_pos rfl]
        · intro to sl
          match q, hl with
          | a :: b :: c, _ => simp only [Wasm.applyPatch, hqe, bind, Except.bind, e2]
      · have hcase : k0 ≠ 0 ∧ D.parent n = none := by
          rcases hc with ⟨hl, _⟩ | ⟨_, h1, h2⟩
          · simp at hl
          · exact ⟨by rintro rfl; exact h1 rfl, h2⟩
        have hs0 : s k0 = some n := by
          simp only [Hotmeal.navigate] at hq
          cases e : s k0 with
          | none => rw [e] at hq; cases hq
          | some m => rw [e] at hq; cases hq; rfl
        have ht0 : t k0 = some (φ n) := (h.slots k0 n hcase.1 hs0).2
        have hD : D1 = D := by
          rcases ht with ⟨hl, _⟩ | ⟨k, _, e, _⟩
          · simp at hl
          · exact e
        subst hD
        refine ⟨φ, L, E, Arena.upd t k0 none, h.clearSlot hcase.1, hnL, rfl, hcase.2,
          fun m hm => ⟨hm, rfl⟩, ?_⟩
        intro to sl
        simp only [Wasm.applyPatch, ht0, bind, Except.bind]
    obtain ⟨φ1, L1, E1, t1, hA1, hnL1, hφ, hfree, hst, hw⟩ := htake
    obtain ⟨hpL, hpe, _⟩ := hA1.navigate m1
    have hee := KindSim.isElement (hA1.data p hpL) m2
    have := hA1.swapPlace (J := J) (x := n) (p := p) (pos := pos) (slot := slot) hnL1 hfree hpL m4 m5
      (D' := D') (s' := s')
      (by
        intro occ hocc
        obtain ⟨D2, e1, hput⟩ := g1 occ hocc
        rw [e1] at hs; cases hs
        exact ⟨hput, rfl⟩)
      (by
        intro e hocc
        obtain ⟨D2, e1, happ⟩ := g2 e hocc
        rw [e1] at hs; cases hs
        exact ⟨happ, rfl⟩)
    rw [hφ] at this
    obtain ⟨φ', L', E', t', e4, hA, hst'⟩ := this
    refine ⟨φ', L', E', t', ?_, hA, fun m hm => ?_⟩
    rotate_left
    · obtain ⟨i1, i2⟩ := hst m hm
      exact ⟨(hst' m i1).1, (hst' m i1).2.trans i2⟩
    rw [hw]
    simp only [bind, Except.bind, Wasm.insertParent_eq hpe hee, e4]

/-- Forget all slots. -/
theorem reset (h : Agree N root eb φ L D s E t) :
    Agree N root eb φ L D (Arena.upd (fun _ => none) 0 (some root)) E (fun _ => none) := by
  refine ⟨h.dwf, h.ewf, h.lt, h.elt, h.inj, h.kids, h.down, h.data, h.free, h.rootL, h.rootE,
    by simp, ?_⟩
  intro k n hk hs
  rw [Arena.upd_ne _ _ hk] at hs; cases hs

end Agree
end Hotmeal
