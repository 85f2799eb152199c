import Verif.Lemmas.Scan
/-
Every card of Spec/Page.lean, written in any of its ways, is read as what it says.
-/
set_option linter.unusedSimpArgs false
set_option linter.unusedVariables false
namespace Vulture.C62
open Vulture.Scan Vulture.Spec Vulture.Spec.Page Vulture.MeshFile
open Vulture.Mesh (isSpace Card)

theorem sscanf_spaced {cs : List Conv} {ts : List Field} {vs : List Val} {s : List Char}
    (hf : Fits (cs.map .conv) ts vs) (hw : Writes ts s) : sscanf (spaced cs) s = vs := by
  rw [spaced_eq]
  refine sscanf_writes hf hw ?_
  intro p t hp _ hq
  subst hq
  cases cs <;> simp at hp

theorem fits_reals (n : Nat) (v : List ℚ) :
    Fits ((List.replicate n Conv.real).map .conv) (v.map .real) ((v.take n).map .real) := by
  induction n generalizing v with
  | zero => exact .format _
  | succ n ih =>
    cases v with
    | nil => exact .fields _
    | cons q v => exact .cons (.real q) (ih v)

theorem fits_ints (n : Nat) (v : List Int) :
    Fits ((List.replicate n Conv.int).map .conv) (v.map .int) ((v.take n).map .int) := by
  induction n generalizing v with
  | zero => exact .format _
  | succ n ih =>
    cases v with
    | nil => exact .fields _
    | cons q v => exact .cons (.int q) (ih v)

theorem reals_map (v : List ℚ) : reals (v.map .real) = v := by
  induction v with
  | nil => rfl
  | cons q v ih => simp only [reals, List.map_cons, List.filterMap_cons] at ih ⊢; rw [ih]

theorem reals_take {v : List ℚ} {n : Nat} (h : v.length ≤ n) : reals ((v.take n).map .real) = v := by
  rw [List.take_of_length_le h, reals_map]

theorem box_eta (b : BBox) : mkBox (b .xlo) (b .xhi) (b .ylo) (b .yhi) (b .zlo) (b .zhi) = b := by
  funext f; cases f <;> rfl

theorem boxed_writes {cs : List Conv} {ts : List Field} {vs : List Val} {s : List Char} {b : BBox}
    (hw : Writes (boxFields b ++ ts) s) (hf : Fits (cs.map .conv) ts vs) : boxed cs s = some (b, vs) := by
  unfold boxed
  have key : sscanf (spaced (List.replicate 6 Conv.int ++ cs)) s = .int (b .xlo) :: .int (b .xhi) :: .int (b .ylo) ::
      .int (b .yhi) :: .int (b .zlo) :: .int (b .zhi) :: vs := by
    refine sscanf_spaced ?_ hw
    exact .cons (.int _) (.cons (.int _) (.cons (.int _) (.cons (.int _) (.cons (.int _) (.cons (.int _) hf)))))
  rw [key]
  simp only [sixInts, box_eta]

theorem justSix_writes {s : List Char} {b : BBox} (hw : Writes (boxFields b) s) : justSix s = some b := by
  have := boxed_writes (cs := []) (ts := []) (vs := []) (by simpa using hw) (.format _)
  unfold boxed at this
  unfold justSix
  simp only [List.append_nil] at this
  rw [this]; rfl

theorem nameType_writes {ts : List Field} {s n t : List Char} (hw : Writes (.word n :: .word t :: ts) s) :
    nameType s = some (n, t) := by
  unfold nameType
  rw [sscanf_spaced (cs := [.word, .word]) (.cons (.word n) (.cons (.word t) (.format _))) hw]

theorem after2_writes {cs : List Conv} {ts : List Field} {vs : List Val} {s n t : List Char}
    (hw : Writes (.word n :: .word t :: ts) s) (hf : Fits (cs.map .conv) ts vs) : after2 cs s = vs := by
  unfold after2
  rw [sscanf_spaced (cs := .word :: .word :: cs) (.cons (.word n) (.cons (.word t) hf)) hw]
  rfl

theorem file2_writes {ts : List Field} {s n t f : List Char} (hw : Writes (.word n :: .word t :: .file f :: ts) s) :
    file2 s = some f := by
  unfold file2
  have e : spaced [.word, .word] ++ .space :: quoted = dirs [.conv .word, .conv .word, .quoted] := rfl
  rw [e, sscanf_writes (.cons (.word n) (.cons (.word t) (.cons (.file f) (.format _)))) hw (by simp)]

theorem external_writes {s n t f : List Char} {v : List ℚ} (hv : v.length ≤ 2)
    (hw : Writes (.word n :: .word t :: .file f :: v.map .real) s) :
    sscanf externalFormat s = .word n :: .word t :: .text f :: v.map .real := by
  have e : externalFormat = dirs [.conv .word, .conv .word, .quoted, .conv .real, .conv .real] := rfl
  have hf := fits_reals 2 v
  rw [List.take_of_length_le hv] at hf
  rw [e]
  exact sscanf_writes (.cons (.word n) (.cons (.word t) (.cons (.file f) hf))) hw (by simp)

theorem after2_reals {n : Nat} {v : List ℚ} {s a b : List Char} (hv : v.length ≤ n)
    (hw : Writes (.word a :: .word b :: v.map .real) s) : reals (after2 (List.replicate n .real) s) = v := by
  rw [after2_writes hw (fits_reals n v), reals_take hv]

theorem after2_none {n : Nat} {s a b f : List Char} {ts : List Field} 
    (hw : Writes (.word a :: .word b :: .file f :: ts) s) : reals (after2 (List.replicate (n + 1) .real) s) = [] := by
  have hf : Fits ((List.replicate (n + 1) Conv.real).map .conv) (.file f :: ts) [] := .fails ⟨rfl, f, rfl⟩
  rw [after2_writes hw hf]; rfl

theorem foldl_none {α β : Type} (f : α → Prop) [DecidablePred f] (g : α → β) (l : List α) (r : Option β)
    (h : ∀ x ∈ l, ¬ f x) : l.foldl (fun r t => if f t then some (g t) else r) r = r := by
  induction l generalizing r with
  | nil => rfl
  | cons a l ih =>
    rw [List.foldl_cons, if_neg (h a (by simp))]
    exact ih r fun x hx => h x (by simp [hx])

theorem lumped_eq (t : List Char) : lumped t = isLumped t := by
  by_cases h : t ∈ Source.tables.map Prod.fst
  · exact (by decide +kernel : ∀ t ∈ Source.tables.map Prod.fst, lumped t = isLumped t) t h
  · have e : Source.lookup t = none := by
      refine foldl_none (fun x : List Char × Source.TagInfo => t = x.1) Prod.snd Source.tables none ?_
      intro x hx e
      exact h (List.mem_map.2 ⟨x, hx, e.symm⟩)
    have e2 : isLumped t = false := by
      by_contra hc
      have hc : isLumped t = true := by simpa using hc
      unfold isLumped at hc
      rw [List.any_eq_true] at hc
      obtain ⟨x, hx, hxt⟩ := hc
      have : t = x.toList := by simpa using (eq_of_beq hxt).symm
      rw [this] at h
      exact h ((by decide +kernel : ∀ x ∈ ["VRX", "VRY", "VRZ", "IGX", "IGY", "IGZ"], x.toList ∈ Source.tables.map Prod.fst) x hx)
    unfold lumped
    rw [e, e2]

theorem faces_all (p : Face → Bool) (h : ∀ f, p f = true) : faces.all p = true := by
  simp [faces, h]

theorem stop_char {c : Char} (h : isDigit c = false) (s : List Char) :
    (c :: s).takeWhile isDigit = [] ∧ (c :: s).dropWhile isDigit = c :: s := by
  simp [List.takeWhile_cons, List.dropWhile_cons, h]

theorem version_text {a b c : Nat} {s : List Char} (hok : (Stmt.version a b c).Ok) (hw : (Stmt.version a b c).Written s) :
    textVM s = some (.vm a b c) := by
  obtain ⟨gap, x, y, z, hg, hx, hy, hz, rfl⟩ := hw
  obtain ⟨h1, h2, h3⟩ := hok
  have e1 := scanInt_spells hx hg (stop_char (c := '.') (by decide) (y ++ '.' :: z))
  have e2 := scanInt_spells (gap := []) hy (by simp) (stop_char (c := '.') (by decide) z)
  have e3 := scanInt_spells (gap := []) (rest := []) hz (by simp) (by simp)
  simp only [List.nil_append, List.append_nil] at e2 e3
  unfold textVM
  simp only [sscanf, scan, e1, e2, e3, Option.map_some, if_true]
  rw [if_neg (by omega)]

/-- Every card: any way to write it is read as what it says. -/
theorem card_reads (st : Stmt) (hok : st.Ok) {s : List Char} (hw : st.Written s) : parseText st.card s = some st.says := by
  cases st with
  | version a b c => exact version_text hok hw
  | comment t => rw [show s = t from hw]; rfl
  | size nx ny nz =>
    obtain ⟨h1, h2, h3⟩ := hok
    show textDM s = _
    unfold textDM
    rw [sscanf_spaced (cs := [.int, .int, .int]) (.cons (.int nx) (.cons (.int ny) (.cons (.int nz) (.format _)))) hw]
    simp only []
    rw [if_neg (by omega)]; rfl
  | oldFaces t =>
    show textBR s = _
    unfold textBR
    rw [justSix_writes hw, Option.bind_some, if_pos]
    · rfl
    · refine faces_all _ fun f => ?_
      rcases hok f with h | h | h <;> simp [h]
  | depths d =>
    show textBE s = _
    unfold textBE
    rw [justSix_writes hw, Option.bind_some, if_pos]
    · rfl
    · exact faces_all _ fun f => by simpa using hok f
  | close c => rcases hok with rfl | rfl | rfl <;> rfl
  | simple n v =>
    show textMT s = _
    unfold textMT
    rw [nameType_writes hw, Option.bind_some, show typeOf mediumTypes "SIMPLE".toList = some .simple from by decide +kernel,
      Option.bind_some]
    simp only []
    rw [after2_reals hok hw]; rfl
  | debye n v =>
    have hok : v.length = 5 ∨ v.length = 7 ∨ v.length = 9 := hok
    have h9 : v.length ≤ 9 := by rcases hok with h | h | h <;> omega
    show textMT s = _
    unfold textMT
    rw [nameType_writes hw, Option.bind_some, show typeOf mediumTypes "DEBYE".toList = some .debye from by decide +kernel,
      Option.bind_some]
    simp only []
    rw [after2_reals h9 hw, if_pos hok]; rfl
  | debyeFile n f =>
    show textMT s = _
    unfold textMT
    rw [nameType_writes hw, Option.bind_some, show typeOf mediumTypes "DEBYE".toList = some .debye from by decide +kernel,
      Option.bind_some]
    simp only []
    rw [after2_none hw, if_neg (by simp), file2_writes hw]; rfl
  | plainMedium n p =>
    show textMT s = _
    unfold textMT
    rw [nameType_writes hw, Option.bind_some]
    cases p
    · rw [show typeOf mediumTypes (if false = true then "PEC" else "FREE_SPACE").toList = some .freeSpace from by decide +kernel]
      rfl
    · rw [show typeOf mediumTypes (if true = true then "PEC" else "FREE_SPACE").toList = some .pec from by decide +kernel]
      rfl
  | boundary n t =>
    show textBT s = _
    unfold textBT
    rw [nameType_writes hw, Option.bind_some,
      show typeOf boundaryTypes (boundaryWord t).toList = some t from by cases t <;> decide +kernel, Option.bind_some]
    cases t
    case pml => exact absurd rfl hok.1
    case sibc => exact absurd rfl hok.2
    all_goals rfl
  | absorber n l o v =>
    show textBT s = _
    unfold textBT
    rw [nameType_writes hw, Option.bind_some, show typeOf boundaryTypes "PML".toList = some .pml from by decide +kernel,
      Option.bind_some]
    simp only []
    have h3 : v.length ≤ 3 := hok
    have hf := fits_reals 3 v
    rw [List.take_of_length_le h3] at hf
    rw [after2_writes (cs := [.int, .int, .real, .real, .real]) hw (.cons (.int l) (.cons (.int o) hf))]
    match v, h3 with
    | [], _ => rfl
    | [_], _ => rfl
    | [_, _], _ => rfl
    | [_, _, _], _ => rfl
  | absorberDefault n l =>
    show textBT s = _
    unfold textBT
    rw [nameType_writes hw, Option.bind_some, show typeOf boundaryTypes "PML".toList = some .pml from by decide +kernel,
      Option.bind_some]
    simp only []
    cases l with
    | none => rw [after2_writes (cs := [.int, .int, .real, .real, .real]) hw (.fields _)]; rfl
    | some l => rw [after2_writes (cs := [.int, .int, .real, .real, .real]) hw (.cons (.int l) (.fields _))]; rfl
  | sheet n v =>
    have hok : v.length = 4 ∨ v.length = 8 := hok
    have h8 : v.length ≤ 8 := by rcases hok with h | h <;> omega
    show textBT s = _
    unfold textBT
    rw [nameType_writes hw, Option.bind_some, show typeOf boundaryTypes "SIBC".toList = some .sibc from by decide +kernel,
      Option.bind_some]
    simp only []
    rw [after2_reals h8 hw, if_pos (Or.symm hok)]; rfl
  | sheetFile n f =>
    show textBT s = _
    unfold textBT
    rw [nameType_writes hw, Option.bind_some, show typeOf boundaryTypes "SIBC".toList = some .sibc from by decide +kernel,
      Option.bind_some]
    simp only []
    rw [after2_none hw, if_neg (by simp), file2_writes hw]; rfl
  | wireType n =>
    show textWT s = _
    unfold textWT
    rw [nameType_writes hw, Option.bind_some, if_pos rfl]; rfl
  | wave n t v =>
    show textWF s = _
    unfold textWF
    rw [nameType_writes hw, Option.bind_some,
      show typeOf waveTypes (waveWord t).toList = some t from by cases t <;> decide +kernel, Option.bind_some,
      if_neg hok.1, after2_reals hok.2 hw]; rfl
  | waveFile n f v =>
    show textWF s = _
    unfold textWF
    rw [nameType_writes hw, Option.bind_some,
      show typeOf waveTypes "EXTERNAL".toList = some .external from by decide +kernel, Option.bind_some, if_pos rfl,
      external_writes hok hw]
    simp only [reals_map]; rfl
  | block b m k =>
    show textMB s = _
    unfold textMB
    cases k with
    | none => rw [boxed_writes (cs := [.word, .word]) hw (.cons (.word m) (.fields _))]; rfl
    | some k => rw [boxed_writes (cs := [.word, .word]) hw (.cons (.word m) (.cons (.word k) (.format _)))]; rfl
  | surface b n =>
    show textTB s = _
    unfold textTB
    rw [boxed_writes (cs := [.word, .int, .real]) hw (.cons (.word n) (.fields _))]; rfl
  | surfaceTurned b n o a =>
    show textTB s = _
    unfold textTB
    cases a with
    | none => rw [boxed_writes (cs := [.word, .int, .real]) hw (.cons (.word n) (.cons (.int o) (.fields _)))]; rfl
    | some a =>
      rw [boxed_writes (cs := [.word, .int, .real]) hw (.cons (.word n) (.cons (.int o) (.cons (.real a) (.format _))))]; rfl
  | wire b n e =>
    show textTW s = _
    unfold textTW
    obtain ⟨h2, he⟩ := hok
    have key : ∀ w ∈ e, typeOf wireEnds w = some () := by
      intro w hw
      rcases he w hw with rfl | rfl | rfl <;> decide +kernel
    match e, h2, key, hw with
    | [], _, _, hw => rw [boxed_writes (cs := [.word, .word, .word]) hw (.cons (.word n) (.fields _))]; rfl
    | [l], _, key, hw =>
      rw [boxed_writes (cs := [.word, .word, .word]) hw (.cons (.word n) (.cons (.word l) (.fields _)))]
      simp only [Option.bind_some, key l (by simp), Option.map_some]; rfl
    | [l, h], _, key, hw =>
      rw [boxed_writes (cs := [.word, .word, .word]) hw (.cons (.word n) (.cons (.word l) (.cons (.word h) (.format _))))]
      simp only [Option.bind_some, key l (by simp), key h (by simp), Option.map_some]; rfl
  | source b n t w v =>
    show textEX s = _
    unfold textEX
    rw [boxed_writes (cs := [.word, .word, .word]) hw (.cons (.word n) (.cons (.word t) (.cons (.word w) (.format _))))]
    have key : ∀ m, v.length ≤ m → ((boxed ([.word, .word, .word] ++ List.replicate m Conv.real) s).map fun x => reals x.2).getD [] = v := by
      intro m hm
      have hf : Fits (([Conv.word, .word, .word] ++ List.replicate m Conv.real).map .conv)
          (.word n :: .word t :: .word w :: v.map .real) (.word n :: .word t :: .word w :: (v.take m).map .real) :=
        .cons (.word n) (.cons (.word t) (.cons (.word w) (fits_reals m v)))
      rw [boxed_writes hw hf]
      have := reals_take hm
      simp only [Option.map_some, Option.getD_some]
      simpa [reals] using this
    simp only [Option.bind_some, lumped_eq]
    have hok : v.length ≤ if isLumped t = true then 3 else 2 := hok
    cases hl : isLumped t
    · rw [hl] at hok
      simp only [Bool.false_eq_true, if_false] at hok ⊢
      rw [key 2 hok]
      simp only [Stmt.says, hl, Bool.false_eq_true, if_false]
    · rw [hl] at hok
      simp only [if_true] at hok ⊢
      rw [key 3 hok]
      simp only [Stmt.says, hl, if_true]
  | planeWave b n w t p e =>
    show textPW s = _
    unfold textPW
    rw [boxed_writes (cs := [.word, .word, .real, .real, .real, .word, .real, .real]) hw (.cons (.word n) (.cons (.word w) (.cons (.real t) (.cons (.real p) (.cons (.real e) (.fields _))))))]; rfl
  | planeWaveMask b n w t p e m v =>
    show textPW s = _
    unfold textPW
    have h2 : v.length ≤ 2 := hok
    have hf := fits_reals 2 v
    rw [List.take_of_length_le h2] at hf
    rw [boxed_writes (cs := [.word, .word, .real, .real, .real, .word, .real, .real]) hw (.cons (.word n) (.cons (.word w) (.cons (.real t) (.cons (.real p) (.cons (.real e) (.cons (.word m) hf))))))]
    match v, h2 with
    | [], _ => rfl
    | [_], _ => rfl
    | [_, _], _ => rfl
  | observer b n f w =>
    show textOP s = _
    unfold textOP
    rw [boxed_writes (cs := [.word, .word]) hw (.cons (.word n) (.cons (.word _) (.format _))), Option.bind_some]
    simp only []
    have ht : typeOf observerTypes (if f then "FDOM_ASCII" else "TDOM_ASCII").toList = some (true, f) := by
      cases f <;> decide +kernel
    rw [ht]
    simp only [Option.map_some, if_true]
    cases w with
    | none =>
      rw [boxed_writes (cs := [.word, .word, .word]) hw (.cons (.word n) (.cons (.word _) (.fields _)))]; rfl
    | some w =>
      rw [boxed_writes (cs := [.word, .word, .word]) hw (.cons (.word n) (.cons (.word _) (.cons (.word w) (.format _))))]; rfl
  | recorder b n st =>
    show textOP s = _
    unfold textOP
    rw [boxed_writes (cs := [.word, .word]) hw (.cons (.word n) (.cons (.word _) (.format _))), Option.bind_some]
    simp only []
    rw [show typeOf observerTypes "TDOM_BINARY".toList = some (false, false) from by decide +kernel]
    simp only [Option.map_some, Bool.false_eq_true, if_false]
    have h3 : st.length ≤ 3 := hok
    have hf := fits_ints 3 st
    rw [List.take_of_length_le h3] at hf
    rw [boxed_writes (cs := [.word, .word, .int, .int, .int]) hw (.cons (.word n) (.cons (.word _) hf))]
    match st, h3 with
    | [], _ => rfl
    | [_], _ => rfl
    | [_, _], _ => rfl
    | [_, _, _], _ => rfl
  | steps n =>
    show textNT s = _
    unfold textNT
    rw [show [Dir.conv .uns] = spaced [.uns] from rfl, sscanf_spaced (cs := [.uns]) (.cons (.uns n) (.format _)) hw]; rfl
  | times a b =>
    show textOT s = _
    unfold textOT
    rw [sscanf_spaced (cs := [.uns, .uns]) (.cons (.uns a) (.cons (.uns b) (.format _))) hw]; rfl
  | freqs a b n =>
    show textOF s = _
    unfold textOF
    rw [sscanf_spaced (cs := [.real, .real, .uns]) (.cons (.real a) (.cons (.real b) (.cons (.uns n) (.format _)))) hw]; rfl
  | courant c =>
    show textCN s = _
    unfold textCN
    rw [show [Dir.conv .real] = spaced [.real] from rfl, sscanf_spaced (cs := [.real]) (.cons (.real c) (.format _)) hw]; rfl
  | spacing v =>
    have hok : v.length = 1 ∨ v.length = 3 := hok
    have h3 : v.length ≤ 3 := by rcases hok with h | h <;> omega
    show textMS s = _
    unfold textMS
    rw [sscanf_spaced (fits_reals 3 v) hw]
    simp only [reals_take h3]
    rw [if_pos hok]; rfl
  | lines a v => exact absurd hok (by simp [Stmt.Ok])

end Vulture.C62
