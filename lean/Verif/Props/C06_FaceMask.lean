import Verif.Model.FaceMask
/-
C06  Face masks mean what the user wrote.
-/
namespace Vulture.C06

/-- The six digits a user writes for a choice of faces (order xlo xhi ylo yhi zlo zhi). -/
def maskString (a : Face → Bool) : List Char :=
  Face.all.map (fun f => if a f then '1' else '0')

/-- Value of a list of binary digits, most significant first. -/
def binValue : List Bool → Nat
  | [] => 0
  | d :: ds => (if d then 2 ^ ds.length else 0) + binValue ds

/-- Spec of an acceptable mask string: optional `+` and at least one binary digit, of value at
most 63, or `-` and only zeros (C's `-0`), or the empty string. -/
def IsMaskNumeral (s : List Char) (v : Nat) : Prop :=
  (s = [] ∧ v = 0) ∨
  ∃ ds : List Bool, ds ≠ [] ∧ v = binValue ds ∧
    let digits := ds.map (fun d => if d then '1' else '0')
    ((s = digits ∨ s = '+' :: digits) ∧ v ≤ 63 ∨ s = '-' :: digits ∧ v = 0)

/-- digits of a list of bits -/
def digits (ds : List Bool) : List Char := ds.map (fun d => if d then '1' else '0')

theorem binDigits_spec (ds : List Bool) (acc : Nat) :
    binDigits acc (digits ds) = (acc * 2 ^ ds.length + binValue ds, []) := by
  induction ds generalizing acc with
  | nil => simp [digits, binDigits, binValue]
  | cons d ds ih =>
    unfold digits at ih
    cases d <;> simp [digits, binDigits, ih, binValue, Nat.pow_succ] <;> grind

/-- If the digit loop consumes everything, the text was a digit string. -/
theorem binDigits_all (cs : List Char) (acc : Nat) (h : (binDigits acc cs).2 = []) :
    ∃ ds, cs = digits ds := by
  induction cs generalizing acc with
  | nil => exact ⟨[], rfl⟩
  | cons c cs ih =>
    unfold binDigits at h
    split at h
    · rename_i e
      obtain ⟨ds, h'⟩ := ih _ (by cases e; exact h)
      exact ⟨false :: ds, by cases e; rw [h']; rfl⟩
    · rename_i e
      obtain ⟨ds, h'⟩ := ih _ (by cases e; exact h)
      exact ⟨true :: ds, by cases e; rw [h']; rfl⟩
    · simp at h

theorem startsDigit_digits (ds : List Bool) : startsDigit (digits ds) = !ds.isEmpty := by
  rcases ds with _ | ⟨_ | _, _⟩ <;> simp [digits, startsDigit]

theorem stripSign_digits (ds : List Bool) : stripSign (digits ds) = (false, digits ds) := by
  rcases ds with _ | ⟨_ | _, _⟩ <;> simp [digits, stripSign]

theorem stripSign_inv (s : List Char) :
    s = '-' :: (stripSign s).2 ∧ (stripSign s).1 = true ∨
    (s = '+' :: (stripSign s).2 ∨ s = (stripSign s).2) ∧ (stripSign s).1 = false := by
  unfold stripSign; split <;> simp

/-- **C06, acceptance.** Exactly the mask numerals are accepted, with their binary value;
every other string gives the error code. For every string. -/
theorem mask_accepts_iff (s : List Char) (v : Nat) (hv : v ≠ FACE_MASK_ERROR) :
    setFaceMaskFromString s = v ↔ IsMaskNumeral s v := by
  constructor
  · intro h
    unfold setFaceMaskFromString at h
    split at h
    · exact absurd h.symm hv
    · rename_i hn
      simp only [not_or, Decidable.not_not] at hn
      obtain ⟨h0, h63, hj⟩ := hn
      unfold strtol2 at h h0 h63 hj
      by_cases hd : startsDigit (stripSign s).2 = true
      · simp only [hd, if_true] at h h0 h63 hj
        obtain ⟨ds, hds⟩ := binDigits_all _ _ hj
        rw [hds] at h h0 h63 hd
        rw [binDigits_spec] at h h0 h63
        rw [startsDigit_digits] at hd
        right
        refine ⟨ds, by rintro rfl; simp at hd, ?_⟩
        rcases stripSign_inv s with ⟨e, e2⟩ | ⟨e, e2⟩
        · simp only [e2, if_true] at h h0 h63
          refine ⟨by omega, Or.inr ⟨by rw [hds] at e; exact e, by omega⟩⟩
        · simp only [e2] at h h0 h63
          simp at h h0 h63
          refine ⟨by omega, Or.inl ⟨?_, by omega⟩⟩
          rw [hds] at e
          exact e.symm
      · simp only [hd] at h hj
        left
        exact ⟨by simpa using hj, by simpa using h.symm⟩
  · rintro (⟨rfl, rfl⟩ | ⟨ds, hne, hval, h⟩)
    · decide
    · have hd : startsDigit (digits ds) = true := by
        rw [startsDigit_digits]; cases ds <;> simp_all
      have hb := binDigits_spec ds 0
      simp only [Nat.zero_mul, Nat.zero_add] at hb
      have hs : strtol2 s = ((v : Int), []) := by
        unfold strtol2
        rcases h with ⟨h | h, h63⟩ | ⟨h, h0⟩ <;> change s = _ at h
        · have : stripSign s = (false, digits ds) := by rw [h]; exact stripSign_digits ds
          simp [this, hd, hb, hval]
        · have : stripSign s = (false, digits ds) := by rw [h]; rfl
          simp [this, hd, hb, hval]
        · have : stripSign s = (true, digits ds) := by rw [h]; rfl
          simp [this, hd, hb, ← hval, h0]
      have h63 : v ≤ 63 := by rcases h with ⟨_, h⟩ | ⟨_, h⟩ <;> omega
      unfold setFaceMaskFromString
      rw [hs]
      simp; omega

/-- **C06, meaning.** Writing the six digits for a choice of faces yields a mask that is active
exactly on the chosen faces, and is not the error code. -/
theorem mask_roundtrip (a : Face → Bool) :
    setFaceMaskFromString (maskString a) ≠ FACE_MASK_ERROR ∧
    faceMask2boolArray (setFaceMaskFromString (maskString a)) = a ∧
    ∀ f, isFaceActive (setFaceMaskFromString (maskString a)) f = a f := by
  have key : ∀ b0 b1 b2 b3 b4 b5 : Bool,
      let a : Face → Bool := fun | .xlo => b0 | .xhi => b1 | .ylo => b2 | .yhi => b3
                                 | .zlo => b4 | .zhi => b5
      setFaceMaskFromString (maskString a) ≠ FACE_MASK_ERROR ∧
      ∀ f ∈ Face.all, isFaceActive (setFaceMaskFromString (maskString a)) f = a f := by
    decide +kernel
  have ha : a = (fun | .xlo => a .xlo | .xhi => a .xhi | .ylo => a .ylo | .yhi => a .yhi
                     | .zlo => a .zlo | .zhi => a .zhi) := by funext f; cases f <;> rfl
  have := key (a .xlo) (a .xhi) (a .ylo) (a .yhi) (a .zlo) (a .zhi)
  dsimp only at this
  have h2 : ∀ f, isFaceActive (setFaceMaskFromString (maskString a)) f = a f := by
    intro f
    have h3 := this.2 f (by cases f <;> simp [Face.all])
    rw [← ha] at h3
    rw [h3]; cases f <;> rfl
  rw [← ha] at this
  exact ⟨this.1, funext h2, h2⟩

/-- Decoding a valid mask and re-encoding the faces is the identity: no two masks mean the same. -/
theorem mask_decode_encode (m : Nat) (hm : m ≤ 63) :
    setFaceMaskFromString (maskString (faceMask2boolArray m)) = m := by
  have key : ∀ m : Fin 64, setFaceMaskFromString (maskString (faceMask2boolArray m)) = m := by
    decide +kernel
  exact key ⟨m, by omega⟩

/-- The plane-wave card's own decoder agrees with the mask digits, and accepts nothing else. -/
theorem decodeFaceMask_iff (s : List Char) (a : Face → Bool) :
    decodeFaceMask s = some a ↔ s = maskString a := by
  have hs : ∀ c : Char, (c == '0' || c == '1') = true →
      c = (if c == '1' then '1' else '0') := by
    intro c h; simp at h; rcases h with h | h <;> simp [h]
  constructor
  · intro h
    unfold decodeFaceMask at h
    split at h
    · rename_i a0 b c d e f
      split at h
      · rename_i hall
        simp only [List.all_cons, List.all_nil, Bool.and_true, Bool.and_eq_true] at hall
        obtain ⟨h0, h1, h2, h3, h4, h5⟩ := hall
        have := Option.some.inj h
        subst this
        simp only [maskString, Face.all, List.map_cons, List.map_nil]
        rw [← hs _ h0, ← hs _ h1, ← hs _ h2, ← hs _ h3, ← hs _ h4, ← hs _ h5]
      · simp at h
    · simp at h
  · intro h
    subst h
    simp only [maskString, Face.all, List.map_cons, List.map_nil, decodeFaceMask]
    have e : ∀ b : Bool, ((if b = true then '1' else '0') == '0' ||
        (if b = true then '1' else '0') == '1') = true := by decide
    have e2 : ∀ b : Bool, ((if b = true then '1' else '0') == '1') = b := by decide
    rw [if_pos (by simp only [List.all_cons, List.all_nil, e, Bool.and_true])]
    congr 1
    funext f
    cases f <;> simp only [e2]

-- Non-vacuity: a concrete string, its acceptance and a rejected one.
example : IsMaskNumeral "100101".toList 37 :=
  Or.inr ⟨[true, false, false, true, false, true], by decide, by decide, Or.inl ⟨Or.inl rfl, by decide⟩⟩
example : setFaceMaskFromString "10012".toList = FACE_MASK_ERROR := by decide
example : setFaceMaskFromString "1000000".toList = FACE_MASK_ERROR := by decide

end Vulture.C06
