import Verif.Lemmas.Json
import Verif.Props.Postcard
import Verif.Props.Machine

set_option autoImplicit false
set_option linter.unusedSectionVars false

/-!
# C82: patches as JSON
-/

namespace Hotmeal.Json

/-- **C82**, for JSON itself: every value is read from its text as it was written, whatever characters are in its
strings. -/
theorem C82_text (x : Json) : parse (print x) = some x := parse_print x

/-- **C82**: the patches that are read from the JSON of patches are these patches, each with its names as they are after
a trip through `QualNameProxy`. The numbers in them have to fit in 32 bits, as all numbers in `u32` do. -/
theorem C82_patches_arrive (ps : List Patch) (hn : ps.map Patch.u32 = ps) :
    read (write ps) = some (ps.map Patch.wire) := by
  unfold read write
  rw [parse_print, Option.bind_some]
  refine mapM_map fun P hP => toPatch_ofPatch (Postcard.fits_of_u32 hn P hP) ?_
  exact Nat.le_of_lt (length_print_arr (List.mem_map_of_mem hP))

/-- **C82**, for what `diff` makes: the patches of two documents with at most 2^30 nodes and no empty prefixes in
the new one arrive as they are. -/
theorem C82_diff_arrives {H : Type} [DecidableEq H] (hashNode : HKind → Option Str → List H → H) (old new : Document)
    (hold : old.Sound) (hnew : new.Sound) (hp : new.NoEmptyPrefix)
    (hsz : old.arena.next + new.arena.next ≤ 2 ^ 30) {ps : List Patch} (hd : diff hashNode old new = .ok ps) :
    diffHtml hashNode old new = .ok (write ps) ∧ read (write ps) = some ps := by
  refine ⟨?_, ?_⟩
  · unfold diffHtml; rw [hd]; rfl
  · rw [C82_patches_arrive ps (C66_fits_u32 hold hnew hsz hd), C45_patches_arrive_unchanged_partial old hp hd]

/-- **C82**: different patches have different JSON, apart from what the names of attributes lose in `QualNameProxy`. -/
theorem C82_unambiguous (ps qs : List Patch) (hp : ps.map Patch.u32 = ps) (hq : qs.map Patch.u32 = qs)
    (h : write ps = write qs) : ps.map Patch.wire = qs.map Patch.wire := by
  have h1 := C82_patches_arrive ps hp
  rw [h, C82_patches_arrive qs hq] at h1
  exact (Option.some.inj h1).symm

/-- **C82**: when only a part of the JSON arrives, it is rejected, and nothing is applied. -/
theorem C82_cut (ps : List Patch) (b c : Str) (h : write ps = b ++ c) (hc : c ≠ []) (dom : WebDom) (root : Nat)
    (A : Arena NodeData) : read b = none ∧ applyJson dom root A b = none := by
  have : read b = none := by unfold read; rw [parse_cut h hc]; rfl
  exact ⟨this, by unfold applyJson; rw [this]⟩

variable {H : Type} [DecidableEq H] {hashNode : HKind → Option Str → List H → H} {old new : Document} {ob nb : Nat}
  {N : QualName → Prop}

/-- **C82**, for what `diff` makes of two pages that can be compared and whose hashes do not collide: the patches arrive
as they are if the two bodies have at most 2^30 nodes, whatever else is in the documents. -/
theorem C82_bodies_arrive (h : Comparable old new ob nb)
    (hc : NoCollision hashNode (buildTree old ob) (diffable new) nb) (hp : new.NoEmptyPrefix)
    (hsz : old.size + new.size ≤ 2 ^ 30) {ps : List Patch} (hd : diff hashNode old new = .ok ps) :
    diffHtml hashNode old new = .ok (write ps) ∧ read (write ps) = some ps := by
  refine ⟨?_, ?_⟩
  · unfold diffHtml; rw [hd]; rfl
  · rw [C82_patches_arrive ps (C66_bodies_fit_u32 h hc hsz hd), C45_patches_arrive_unchanged_partial old hp hd]

/-- **C31**, partial, from one JavaScript call to the other: when the page shows the body of the old document, the JSON
that `diff_html` returns can be given to `apply_patches_json`, and then the page has the inner HTML of the body of the
new document. Missing: as for `C31_browser_shows_new_partial`. -/
theorem C31_json_round_trip_partial (dom : WebDom) (h : Comparable old new ob nb)
    (hc : NoCollision hashNode (buildTree old ob) (diffable new) nb)
    (hq : OpaqueFixed hashNode old new ob nb)
    (hf : NoMoveBelowSelf hashNode old new ob nb ∨ NoInversion hashNode old new ob nb)
    (hN : PlainNames N) (ho : old.NamesIn N ob) (hn : new.NamesIn N nb)
    (hp : new.NoEmptyPrefix) (hsz : old.size + new.size ≤ 2 ^ 30)
    (hk : new.AllIn dom.KeepsTag dom.KeepsName nb)
    {E : Arena NodeData} {eb : Nat} (hE : E.WF) (heb : eb < E.next) (hEe : E.ElemBelow eb) (hEl : E.Lower)
    (hsame : (E.tree eb).unq = (old.arena.tree ob).unq) :
    ∃ s count E', diffHtml hashNode old new = .ok s ∧ applyJson dom eb E s = some (count, E') ∧
      (E'.tree eb).inner = new.toBodyHtml := by
  obtain ⟨ps, E', e1, e2, e3⟩ := C31_browser_shows_new_partial dom h hc hq hf hN ho hn hE heb hEe hEl
    (fun _ e => C31_names_from_new dom h hc hq.agree hk e) hsame
  obtain ⟨e4, e5⟩ := C82_bodies_arrive h hc hp hsz e1
  refine ⟨write ps, ps.length, E', e4, ?_, e3⟩
  unfold applyJson
  simp only [e5, e2]

/-! ## Cases that meet the hypotheses -/

/-- Patches of all kinds have numbers of 32 bits. -/
example : Postcard.exPatches.map Patch.u32 = Postcard.exPatches ∧ 800 < (write Postcard.exPatches).length :=
  ⟨Postcard.exPatches_u32, by decide +kernel⟩

/-- The text of a small patch list, with characters that have to be escaped. -/
example : write [.setText [0, 12] ['"', '\\', '\n', '\x01', '中'], .move [1] [0] none] =
    ("[{\"SetText\":{\"path\":[0,12],\"text\":\"\\\"\\\\\\n\\u0001中\"}}," ++
      "{\"Move\":{\"from\":[1],\"to\":[0],\"detach_to_slot\":null}}]").toList := by
  decide +kernel

/-- Other texts that are read: spaces, members in other places, other escapes; and texts that are rejected. -/
example : (match read " [ {\"SetText\" : { \"text\":\"\\u00e9\\/\\ud834\\udd1e\" , \"path\":[ 0 ]}}]\n".toList with
      | some [.setText [0] ['é', '/', '𝄞']] => true
      | _ => false) = true ∧
    (read "[{\"Remove\":{\"node\":[0,4294967296]}}]".toList).isNone = true ∧
    (read "[{\"Remove\":{\"node\":[0]}}".toList).isNone = true ∧
    (read "[{\"Remove\":{\"path\":[0]}}]".toList).isNone = true := by
  decide +kernel

/-- A page that shows `ex1`, and the JSON that makes it show `ex2`. The hypotheses on documents are shown for
`C01_on_the_machine_partial`. -/
example : (match diffHtml Shape.node (.ofForest ex1) (.ofForest ex2) with
    | .ok s =>
      (match applyJson WebDom.lenient 2 (Document.ofForest ex1).arena s with
      | some (count, E') => decide (count = 11 ∧ (E'.tree 2).inner = (Document.ofForest ex2).toBodyHtml)
      | none => false)
    | .error _ => false) = true := by
  decide +kernel

end Hotmeal.Json
