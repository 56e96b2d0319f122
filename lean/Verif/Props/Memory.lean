import Verif.Model.Memory

set_option autoImplicit false

/-!
# C57: borrowing from the input does not change a text
-/

namespace Hotmeal

/-- The UTF-8 encoding. -/
def utf8 (cs : List Char) : List UInt8 := cs.flatMap String.utf8EncodeChar

/-- The bytes are those of a string. -/
def IsUtf8 (bs : List UInt8) : Prop := ∃ cs, bs = utf8 cs

theorem utf8_cons (c : Char) (cs : List Char) : utf8 (c :: cs) = String.utf8EncodeChar c ++ utf8 cs := rfl

theorem enc_prefix {c d : Char} {r s : List UInt8}
    (h : String.utf8EncodeChar c ++ r = String.utf8EncodeChar d ++ s) : c = d ∧ r = s := by
  have e : c = d := by
    have h1 := ByteArray.utf8DecodeChar?_utf8EncodeChar_append (b := r.toByteArray) (c := c)
    have h2 := ByteArray.utf8DecodeChar?_utf8EncodeChar_append (b := s.toByteArray) (c := d)
    rw [← List.toByteArray_append] at h1 h2
    rw [h, h2] at h1
    exact (Option.some.inj h1).symm
  subst e
  exact ⟨rfl, List.append_cancel_left h⟩

/-- A string that begins with the bytes of another one begins with its characters. -/
theorem utf8_prefix (us : List Char) : ∀ {ws : List Char} {r : List UInt8}, utf8 ws = utf8 us ++ r →
    ∃ vs, ws = us ++ vs ∧ r = utf8 vs := by
  induction us with
  | nil => intro ws r h; exact ⟨ws, rfl, h.symm⟩
  | cons u us ih =>
    intro ws r h
    cases ws with
    | nil =>
      have hl := congrArg List.length h
      have := Char.utf8Size_pos u
      simp [utf8] at hl
      omega
    | cons w ws =>
      rw [utf8_cons, utf8_cons, List.append_assoc] at h
      obtain ⟨rfl, h'⟩ := enc_prefix h
      obtain ⟨vs, rfl, hr⟩ := ih h'
      exact ⟨vs, rfl, hr⟩

/-- A position of a string with a first byte of a character is between two characters. -/
theorem utf8_split (ws : List Char) : ∀ {l r : List UInt8} {b : UInt8}, utf8 ws = l ++ b :: r → b.IsUTF8FirstByte →
    ∃ vs, b :: r = utf8 vs := by
  induction ws with
  | nil => intro l r b h; simp [utf8] at h
  | cons w ws ih =>
    intro l r b h hb
    rw [utf8_cons] at h
    rcases List.append_eq_append_iff.1 h with ⟨as, e1, e2⟩ | ⟨bs, e1, e2⟩
    · exact ih e2 hb
    · cases l with
      | nil => exact ⟨w :: ws, by rw [utf8_cons, h]; rfl⟩
      | cons x l =>
        cases bs with
        | nil => exact ⟨ws, by simpa using e2⟩
        | cons y bs =>
          have hy : y = b := by have := (List.cons.inj e2).1; exact this.symm
          subst hy
          exfalso
          have hi : (x :: l).length < (String.utf8EncodeChar w).length := by rw [e1]; simp
          have hg : (String.utf8EncodeChar w)[(x :: l).length] = y := by
            simp only [e1]
            simp
          rw [← hg, UInt8.isUTF8FirstByte_getElem_utf8EncodeChar] at hb
          simp at hb

theorem first_of_utf8 {vs : List Char} {b : UInt8} {r : List UInt8} (h : b :: r = utf8 vs) : b.IsUTF8FirstByte := by
  cases vs with
  | nil => simp [utf8] at h
  | cons v vs =>
    have h0 : 0 < (String.utf8EncodeChar v).length := by simp [Char.utf8Size_pos]
    have hg : (String.utf8EncodeChar v)[0] = b := by
      rw [utf8_cons] at h
      have := congrArg (fun l => l[0]?) h
      simp only [List.getElem?_append_left h0, List.getElem?_eq_getElem h0] at this
      simpa using this.symm
    rw [← hg]
    exact UInt8.isUTF8FirstByte_getElem_zero_utf8EncodeChar

theorem first_boundary : ∀ b : UInt8, b.IsUTF8FirstByte → b < 128 ∨ 192 ≤ b := by
  intro b
  unfold UInt8.IsUTF8FirstByte
  have : ∀ i : Fin 256, (UInt8.ofNat i).IsUTF8FirstByte → UInt8.ofNat i < 128 ∨ 192 ≤ UInt8.ofNat i := by
    decide +kernel
  have h := this ⟨b.toNat, b.toNat_lt⟩
  simpa [UInt8.IsUTF8FirstByte] using h

theorem Slice.bytes_length (m : Mem) (s : Slice) : (s.bytes m).length = s.len := by simp [Slice.bytes]

theorem Slice.bytes_get (m : Mem) (s : Slice) {i : Nat} (h : i < s.len) : (s.bytes m)[i]? = some (m (s.addr + i)) := by
  simp [Slice.bytes, h]

/-- The bytes of a slice with those of a slice inside it. -/
theorem Slice.bytes_split (m : Mem) (s : Slice) {off len : Nat} (h : off + len ≤ s.len) :
    s.bytes m = (Slice.mk s.addr off).bytes m ++ (Slice.mk (s.addr + off) len).bytes m ++
      (Slice.mk (s.addr + off + len) (s.len - (off + len))).bytes m := by
  apply List.ext_getElem?
  intro i
  simp only [Slice.bytes, List.getElem?_append, List.length_append, List.length_map, List.length_range,
    List.getElem?_map]
  by_cases h1 : i < off
  · rw [if_pos (by omega), if_pos h1, List.getElem?_range (by omega), List.getElem?_range h1]
  · by_cases h2 : i < off + len
    · rw [if_pos h2, if_neg h1, List.getElem?_range (by omega), List.getElem?_range (by omega)]
      simp only [Option.map_some]
      congr 2; omega
    · rw [if_neg h2]
      by_cases h3 : i < s.len
      · rw [List.getElem?_range h3, List.getElem?_range (by omega)]
        simp only [Option.map_some]
        congr 2; omega
      · rw [List.getElem?_eq_none (by simp; omega), List.getElem?_eq_none (by simp; omega)]
        rfl

/-- **C57.** Taking a piece of text out of the parser never panics, does not change the text, wherever in memory it
is, and copies nothing if it lies inside the input. A piece without characters must not point into a
character of the input; html5ever and tendril use a constant address for it. -/
theorem C57_borrowing_keeps_the_text (m : Mem) (input t : Slice) (hi : IsUtf8 (input.bytes m)) (ht : IsUtf8 (t.bytes m))
    (hne : t.len ≠ 0 ∨ t.addr ≤ input.addr ∨ input.addr + input.len ≤ t.addr) :
    ∃ st, tendrilToStem m input t = some st ∧ st.bytes m = t.bytes m ∧
      (input.addr ≤ t.addr → t.addr + t.len ≤ input.addr + input.len → st = .borrowed t) := by
  unfold tendrilToStem
  by_cases h : t.addr ≥ input.addr ∧ t.addr + t.len ≤ input.addr + input.len
  · obtain ⟨off, ho⟩ := Nat.exists_eq_add_of_le h.1
    have hb : off + t.len ≤ input.len := by omega
    have heq : t = ⟨input.addr + off, t.len⟩ := by cases t; simp_all
    have hs := Slice.bytes_split m input hb
    rw [← heq] at hs
    obtain ⟨ws, hw⟩ := hi
    obtain ⟨us, hu⟩ := ht
    have ends : input.isCharBoundary m off ∧ input.isCharBoundary m (off + t.len) := by
      by_cases h0 : t.len = 0
      · have : off = 0 ∨ off = input.len := by
          rcases hne with h' | h' | h'
          · exact absurd h0 h'
          · left; omega
          · right; omega
        have hbd : input.isCharBoundary m off := by
          unfold Slice.isCharBoundary
          rcases this with e | e <;> simp [e]
        rw [h0]
        exact ⟨hbd, hbd⟩
      · cases us with
        | nil =>
          have := congrArg List.length hu
          rw [Slice.bytes_length] at this
          exact absurd this h0
        | cons u us =>
          obtain ⟨b, r, hbr⟩ : ∃ b r, t.bytes m = b :: r := by
            cases e : t.bytes m with
            | nil => have := Slice.bytes_length m t; rw [e] at this; exact absurd this.symm h0
            | cons b r => exact ⟨b, r, rfl⟩
          have hfirst : b.IsUTF8FirstByte := first_of_utf8 (vs := u :: us) (by rw [← hbr, hu])
          have hbm : b = m (input.addr + off) := by
            have := Slice.bytes_get m t (i := 0) (by omega)
            rw [hbr] at this
            rw [← ho]
            simpa using this
          constructor
          · have := first_boundary b hfirst
            rw [hbm] at this
            unfold Slice.isCharBoundary
            split
            · rfl
            · rw [if_neg (by omega)]
              rcases this with e | e <;> simp [e]
          · have hrest : ∃ vs, (Slice.mk (input.addr + off + t.len) (input.len - (off + t.len))).bytes m = utf8 vs := by
              have hsp := hs
              rw [hbr, hw, List.append_assoc, List.cons_append] at hsp
              obtain ⟨vs, hvs⟩ := utf8_split ws hsp hfirst
              rw [← List.cons_append, ← hbr, hu] at hvs
              obtain ⟨vs', -, h'⟩ := utf8_prefix (u :: us) hvs.symm
              exact ⟨vs', h'⟩
            obtain ⟨vs, hvs⟩ := hrest
            unfold Slice.isCharBoundary
            rw [if_neg (by omega)]
            split
            · simp; omega
            · rename_i hlt
              have hg := Slice.bytes_get m (Slice.mk (input.addr + off + t.len) (input.len - (off + t.len))) (i := 0)
                (by show 0 < input.len - (off + t.len); omega)
              cases e : (Slice.mk (input.addr + off + t.len) (input.len - (off + t.len))).bytes m with
              | nil => rw [e] at hg; simp at hg
              | cons x r' =>
                have hx : x.IsUTF8FirstByte := first_of_utf8 (vs := vs) (by rw [← e, hvs])
                rw [e] at hg
                have hx' : x = m (input.addr + (off + t.len)) := by
                  rw [← Nat.add_assoc]; simpa using hg
                have := first_boundary x hx
                rw [hx'] at this
                rcases this with e | e <;> simp [e]
    refine ⟨.borrowed t, ?_, rfl, fun _ _ => rfl⟩
    rw [if_pos h]
    have hoff : t.addr - input.addr = off := by omega
    simp only [hoff, Slice.index]
    rw [if_pos ⟨by omega, ends⟩, Nat.add_sub_cancel_left, ← heq]
    rfl
  · rw [if_neg h]
    refine ⟨_, rfl, rfl, fun h1 h2 => absurd ⟨h1, h2⟩ h⟩

/-- **C57.** The other operations on stems act on the text only: the result does not depend on whether a stem borrows. -/
theorem C57_operations_act_on_the_text (m : Mem) (st : MemStem) (t : List UInt8) :
    (st.pushStr m t).bytes m = st.bytes m ++ t ∧ (st.intoOwned m).bytes m = st.bytes m := by
  cases st <;> exact ⟨rfl, rfl⟩

/-- **C57.** A stem taken from the parser keeps its text as long as the memory of the input is not changed, and an owned
stem keeps it whatever happens to the memory. -/
theorem C57_text_lasts (m m' : Mem) (input t : Slice) (st : MemStem) (h : tendrilToStem m input t = some st) :
    ((∀ i < input.len, m' (input.addr + i) = m (input.addr + i)) → st.bytes m' = st.bytes m) ∧
      ((st.intoOwned m).bytes m' = st.bytes m) ∧ ∀ u, (st.pushStr m u).bytes m' = st.bytes m ++ u := by
  refine ⟨fun hm => ?_, ?_, fun u => ?_⟩
  · unfold tendrilToStem at h
    split at h
    · rename_i hin
      simp only [Slice.index] at h
      split at h
      · cases h
        show Slice.bytes m' _ = Slice.bytes m _
        unfold Slice.bytes
        refine List.map_congr_left fun i hi => ?_
        have hi' := List.mem_range.1 hi
        simp only at hi'
        have := hm (t.addr - input.addr + i) (by omega)
        simpa [Nat.add_assoc] using this
      · exact nomatch h
    · cases h; rfl
  · cases st <;> rfl
  · cases st <;> rfl

/-- A memory with the input `"aéb"` at address 100. -/
def exMem : Mem := fun n => (utf8 "aéb".toList)[n - 100]?.getD 0

/-- The hypotheses hold for the letter `é` inside the input and for a piece at another place. -/
example : IsUtf8 ((Slice.mk 100 4).bytes exMem) ∧ IsUtf8 ((Slice.mk 101 2).bytes exMem) ∧
    IsUtf8 ((Slice.mk 7 1).bytes exMem) ∧
    (tendrilToStem exMem ⟨100, 4⟩ ⟨101, 2⟩).map (·.bytes exMem) = some (utf8 "é".toList) :=
  ⟨⟨"aéb".toList, by decide +kernel⟩, ⟨"é".toList, by decide +kernel⟩, ⟨"a".toList, by decide +kernel⟩,
    by decide +kernel⟩

/-- **C57.** The condition on empty pieces is needed: one that points between the two bytes of `é` is a panic. -/
theorem C57_empty_piece_inside_a_character : tendrilToStem exMem ⟨100, 4⟩ ⟨102, 0⟩ = none ∧
    IsUtf8 ((Slice.mk 100 4).bytes exMem) ∧ IsUtf8 ((Slice.mk 102 0).bytes exMem) :=
  ⟨by
    have : (tendrilToStem exMem ⟨100, 4⟩ ⟨102, 0⟩).isNone = true := by decide +kernel
    simpa using this, ⟨"aéb".toList, by decide +kernel⟩, ⟨[], rfl⟩⟩

end Hotmeal
