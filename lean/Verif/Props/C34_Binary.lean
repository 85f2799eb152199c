import Verif.Props.C32_Record
import Verif.Model.Binary
import Verif.Spec.Files
/-
C34. Binary output.
-/
set_option linter.unusedSimpArgs false
set_option linter.unusedSectionVars false
namespace Vulture.C34
open Vulture Run Spec C35 C32

theorem word_le32 (b : BitVec 32) : word (b.extractLsb' 0 8) (b.extractLsb' 8 8) (b.extractLsb' 16 8)
    (b.extractLsb' 24 8) = b := by
  unfold word
  apply BitVec.eq_of_getLsbD_eq
  intro i hi
  simp only [BitVec.getLsbD_append, BitVec.getLsbD_extractLsb']
  rcases Nat.lt_or_ge i 8 with h | h
  · simp [h]
  · rcases Nat.lt_or_ge i 16 with h2 | h2
    · have a1 : ¬ i < 8 := by omega
      have a2 : i - 8 < 8 := by omega
      have a3 : 8 + (i - 8) = i := by omega
      simp [a1, a2, a3]
    · rcases Nat.lt_or_ge i 24 with h3 | h3
      · have a1 : ¬ i < 8 := by omega
        have a2 : ¬ i - 8 < 8 := by omega
        have a3 : i - 8 - 8 < 8 := by omega
        have a4 : 16 + (i - 8 - 8) = i := by omega
        simp [a1, a2, a3, a4]
      · have a1 : ¬ i < 8 := by omega
        have a2 : ¬ i - 8 < 8 := by omega
        have a3 : ¬ i - 8 - 8 < 8 := by omega
        have a5 : i - 8 - 8 - 8 < 8 := by omega
        have a4 : 24 + (i - 8 - 8 - 8) = i := by omega
        simp [a1, a2, a3, a4, a5]

theorem words_cons (b : BitVec 32) (l : List Byte) : words (le32 b ++ l) = (words l).map (b :: ·) := by
  have : words (le32 b ++ l) = (words l).map (word (b.extractLsb' 0 8) (b.extractLsb' 8 8) (b.extractLsb' 16 8)
    (b.extractLsb' 24 8) :: ·) := rfl
  rw [this, word_le32]

/-- The words of a record. -/
def recWords (bits : ℝ → BitVec 32) (r : Rec) : List (BitVec 32) :=
  [BitVec.ofInt 32 r.node.1, BitVec.ofInt 32 r.node.2.1, BitVec.ofInt 32 r.node.2.2] ++ r.values.map bits

theorem words_values (bits : ℝ → BitVec 32) (vs : List ℝ) (l : List Byte) :
    words (vs.flatMap (fun v => le32 (bits v)) ++ l) = (words l).map (vs.map bits ++ ·) := by
  induction vs with
  | nil => simp
  | cons v vs ih =>
    rw [List.flatMap_cons, List.append_assoc, words_cons, ih]
    cases words l <;> rfl

theorem words_rec (bits : ℝ → BitVec 32) (r : Rec) (l : List Byte) :
    words (encRec bits r ++ l) = (words l).map (recWords bits r ++ ·) := by
  unfold encRec recWords
  rw [List.append_assoc, List.append_assoc, List.append_assoc, words_cons, words_cons, words_cons, words_values]
  cases words l <;> rfl

theorem words_recs (bits : ℝ → BitVec 32) (rs : List Rec) :
    words (rs.flatMap (encRec bits)) = some (rs.flatMap (recWords bits)) := by
  induction rs with
  | nil => rfl
  | cons r rs ih => rw [List.flatMap_cons, words_rec, ih]; rfl

/-- What a reader should find for a record. -/
def decoded (bits : ℝ → BitVec 32) (r : Rec) : Sample := ⟨r.node, r.values.map bits⟩

/-- The coordinates fit an `int`. -/
def Fits (i : Int) : Prop := -2 ^ 31 ≤ i ∧ i < 2 ^ 31

theorem fits_roundtrip {i : Int} (h : Fits i) : (BitVec.ofInt 32 i).toInt = i := by
  rw [BitVec.toInt_ofInt]
  apply Int.bmod_eq_of_le <;> (unfold Fits at h; omega)

theorem samples_recs (bits : ℝ → BitVec 32) (rs : List Rec) (h6 : ∀ r ∈ rs, r.values.length = 6)
    (hf : ∀ r ∈ rs, Fits r.node.1 ∧ Fits r.node.2.1 ∧ Fits r.node.2.2) :
    samples (rs.flatMap (recWords bits)) = some (rs.map (decoded bits)) := by
  induction rs with
  | nil => rfl
  | cons r rs ih =>
    have i := ih (fun r h => h6 r (by simp [h])) (fun r h => hf r (by simp [h]))
    obtain ⟨f1, f2, f3⟩ := hf r (by simp)
    obtain ⟨⟨a, b, c⟩, vs⟩ := r
    have hv := h6 _ (List.mem_cons_self ..)
    simp only at hv f1 f2 f3
    match vs, hv with
    | [v1, v2, v3, v4, v5, v6], _ =>
      rw [List.flatMap_cons]
      have : ∀ l, samples (recWords bits ⟨(a, b, c), [v1, v2, v3, v4, v5, v6]⟩ ++ l) =
          (samples l).map (⟨((BitVec.ofInt 32 a).toInt, (BitVec.ofInt 32 b).toInt, (BitVec.ofInt 32 c).toInt),
            [bits v1, bits v2, bits v3, bits v4, bits v5, bits v6]⟩ :: ·) := fun l => rfl
      rw [this, i, fits_roundtrip f1, fits_roundtrip f2, fits_roundtrip f3]
      rfl

theorem read_file (bits : ℝ → BitVec 32) (n : BitVec 64) (dt : BitVec 32) (rs : List Rec)
    (h6 : ∀ r ∈ rs, r.values.length = 6) (hf : ∀ r ∈ rs, Fits r.node.1 ∧ Fits r.node.2.1 ∧ Fits r.node.2.2) :
    readImpulse (header n dt ++ rs.flatMap (encRec bits)) = some (n.extractLsb' 0 32, dt, rs.map (decoded bits)) := by
  unfold readImpulse header headCount
  rw [List.append_assoc, words_cons, words_cons, words_recs]
  simp only [Option.map_some, samples_recs bits rs h6 hf]

/-! ### Strides -/

theorem everyNth_eq {lo hi step : Int} (h : 1 ≤ step) : everyNth lo hi step = strided lo hi step := by
  have sorted : (everyNth lo hi step).Pairwise (· < ·) := by
    unfold everyNth
    refine List.Pairwise.filter _ ?_
    rw [List.pairwise_map]
    exact List.pairwise_lt_range.imp fun {a b} hab => by omega
  refine (List.perm_of_nodup_nodup_toFinset_eq ?_ ?_ ?_).eq_of_pairwise' (sorted.imp le_of_lt)
    ((strided_sorted h).imp le_of_lt)
  · exact sorted.imp fun h => ne_of_lt h
  · exact (strided_sorted h).imp fun h => ne_of_lt h
  · ext i
    rw [List.mem_toFinset, List.mem_toFinset, strided_mem h]
    unfold everyNth Selected
    simp only [List.mem_filter, List.mem_map, List.mem_range, decide_eq_true_eq]
    constructor
    · rintro ⟨⟨m, hm, rfl⟩, hd⟩
      exact ⟨by omega, by omega, hd⟩
    · rintro ⟨h1, h2, hd⟩
      exact ⟨⟨(i - lo).toNat, by omega, by omega⟩, hd⟩

theorem strided_shift (lo hi step g : Int) : (strided lo hi step).map (· - g) = strided (lo - g) (hi - g) step := by
  unfold strided
  rw [List.map_map, show hi - g - (lo - g) = hi - lo by ring]
  refine List.map_congr_left fun m _ => ?_
  simp only [Function.comp]; ring

section
variable (S : Sim) (C : CRef → ℝ) (u : Nat → Loc → ℝ) (e : Env) (dt : ℝ) (s0 : Loc → ℝ)

/-- The nodes of a binary observer's records are those its `process.dat` line describes. -/
theorem record_nodes {x : Item} (hs : ∀ a, 1 ≤ x.step a) (q : Nat) : (nodeRecs S C u e s0 x q).map Rec.node =
    fileNodes (fun a => x.gbbox a.lo - e.giboxLo a) (fun a => x.gbbox a.hi - e.giboxLo a) x.step := by
  have h : boxNodes x.gbbox x.step = some ((strided (x.gbbox .zlo) (x.gbbox .zhi) (x.step .z)).flatMap fun k =>
      (strided (x.gbbox .ylo) (x.gbbox .yhi) (x.step .y)).flatMap fun j =>
        (strided (x.gbbox .xlo) (x.gbbox .xhi) (x.step .x)).map fun i => (i, j, k)) := by
    simp [boxNodes, forStep, hs .x, hs .y, hs .z]
  unfold nodeRecs fileNodes
  rw [h]
  simp only [everyNth_eq (hs _), Axis.lo, Axis.hi]
  rw [← strided_shift, ← strided_shift, ← strided_shift]
  simp only [Option.getD_some, List.map_flatMap, List.map_map, List.flatMap_map, Function.comp_def]

theorem values_six {x : Item} {q : Nat} {r : Rec} (h : r ∈ nodeRecs S C u e s0 x q) : r.values.length = 6 := by
  unfold nodeRecs at h
  obtain ⟨t, -, rfl⟩ := List.mem_map.1 h
  rfl

/-- Every coordinate in the file fits an `int`. -/
def BoxFits : Prop := ∀ x ∈ e.items, x.kind = .binary → ∀ a : Axis,
  Fits (x.gbbox a.lo - e.giboxLo a) ∧ Fits (x.gbbox a.hi - e.giboxLo a) ∧ 1 ≤ x.step a

theorem everyNth_fits {lo hi step i : Int} (h : i ∈ everyNth lo hi step) (h1 : Fits lo) (h2 : Fits hi) : Fits i := by
  unfold everyNth at h
  simp only [List.mem_filter, List.mem_map, List.mem_range] at h
  obtain ⟨⟨m, hm, rfl⟩, -⟩ := h
  unfold Fits at *
  omega

theorem impulse_fits (hb : BoxFits e) {n : Nat} (hn : n ≤ 2 ^ 64) {out : Out}
    (h : outputs S C u e dt s0 n = some out) {r : Rec} (hr : r ∈ out.impulse) :
    r.values.length = 6 ∧ Fits r.node.1 ∧ Fits r.node.2.1 ∧ Fits r.node.2.2 := by
  rw [binary_records S C u e dt s0 hn h] at hr
  obtain ⟨q, -, hr⟩ := List.mem_flatMap.1 hr
  obtain ⟨x, hx, hr⟩ := List.mem_flatMap.1 hr
  obtain ⟨hx, hk⟩ := List.mem_filter.1 hx
  have hb := hb x hx (by simpa using hk)
  refine ⟨values_six S C u e s0 hr, ?_⟩
  have : r.node ∈ (nodeRecs S C u e s0 x q).map Rec.node := List.mem_map_of_mem hr
  rw [record_nodes S C u e s0 (fun a => (hb a).2.2)] at this
  unfold fileNodes at this
  simp only [List.mem_flatMap, List.mem_map] at this
  obtain ⟨k, hk, j, hj, i, hi, he⟩ := this
  rw [← he]
  exact ⟨everyNth_fits hi (hb .x).1 (hb .x).2.1, everyNth_fits hj (hb .y).1 (hb .y).2.1,
    everyNth_fits hk (hb .z).1 (hb .z).2.1⟩

/-- The fields of step `q` at the node with mesh coordinates `t`. -/
def sampleAt (bits : ℝ → BitVec 32) (q : Nat) (t : Int × Int × Int) : Sample :=
  ⟨t, [Fc.ex, .ey, .ez, .hx, .hy, .hz].map fun fc => bits (S.state C u s0 q
    (.fld fc (t.1 + e.giboxLo .x) (t.2.1 + e.giboxLo .y) (t.2.2 + e.giboxLo .z)))⟩

/-- Reading the file gives, for every step of the window, for every box line of `process.dat`, the samples of its nodes:
nothing is lost, added or reordered. -/
theorem file_contents (bits : ℝ → BitVec 32) (dtb : BitVec 32) (hb : BoxFits e) {n : Nat} (hn : n ≤ 2 ^ 64) {out : Out}
    (h : outputs S C u e dt s0 n = some out) :
    readImpulse (impulseDat bits e dtb out) = some ((numOut e.win).extractLsb' 0 32, dtb,
      (stepsIn e.win.1.toNat e.win.2.toNat n).flatMap fun q => (boxLines e).flatMap fun b =>
        (fileNodes b.lo b.hi b.step).map (sampleAt S C u e s0 bits q)) := by
  unfold impulseDat
  rw [read_file bits _ dtb _ (fun r hr => (impulse_fits S C u e dt s0 hb hn h hr).1)
    (fun r hr => (impulse_fits S C u e dt s0 hb hn h hr).2)]
  rw [binary_records S C u e dt s0 hn h]
  congr 3
  rw [List.map_flatMap]
  refine List.flatMap_congr fun q _ => ?_
  unfold boxLines
  rw [List.map_flatMap, List.flatMap_map]
  refine List.flatMap_congr fun x hx => ?_
  obtain ⟨hx, hk⟩ := List.mem_filter.1 hx
  have hs := hb x hx (by simpa using hk)
  simp only
  rw [← record_nodes S C u e s0 (q := q) (fun a => (hs a).2.2), List.map_map]
  unfold nodeRecs
  rw [List.map_map, List.map_map]
  refine List.map_congr_left fun t _ => ?_
  simp only [Function.comp, decoded, sampleAt, fieldsAt, fieldList, List.map_map, sub_add_cancel]
  rfl

/-- Records per step according to `process.dat`. -/
def perStep : Int := ((boxLines e).map fun b =>
  (1 + (b.hi .x - b.lo .x) / b.step .x) * (1 + (b.hi .y - b.lo .y) / b.step .y) * (1 + (b.hi .z - b.lo .z) / b.step .z)).sum

theorem everyNth_length {lo hi step : Int} (h : 1 ≤ step) (hl : lo ≤ hi) :
    ((everyNth lo hi step).length : Int) = 1 + (hi - lo) / step := by
  rw [everyNth_eq h, strided_length h hl]

theorem fileNodes_length {lo hi step : Axis → Int} (hs : ∀ a, 1 ≤ step a) (hl : ∀ a, lo a ≤ hi a) :
    ((fileNodes lo hi step).length : Int) =
      (1 + (hi .x - lo .x) / step .x) * (1 + (hi .y - lo .y) / step .y) * (1 + (hi .z - lo .z) / step .z) := by
  rw [← everyNth_length (hs .x) (hl .x), ← everyNth_length (hs .y) (hl .y), ← everyNth_length (hs .z) (hl .z)]
  unfold fileNodes
  simp only [List.length_flatMap, List.length_map, List.map_const', List.sum_replicate, smul_eq_mul]
  push_cast
  ring

/-- Number of records: steps of the window the run reaches, times nodes per step. -/
theorem record_count (hb : BoxFits e) (ho : ∀ x ∈ e.items, x.kind = .binary → ∀ a : Axis, x.gbbox a.lo ≤ x.gbbox a.hi)
    {n : Nat} (hn : n ≤ 2 ^ 64) {out : Out} (h : outputs S C u e dt s0 n = some out) :
    (out.impulse.length : Int) = (stepsIn e.win.1.toNat e.win.2.toNat n).length * perStep e := by
  rw [binary_records S C u e dt s0 hn h]
  have one : ∀ q, (((e.items.filter fun x => x.kind = .binary).flatMap fun x => nodeRecs S C u e s0 x q).length : Int) =
      perStep e := by
    intro q
    unfold perStep boxLines
    rw [List.length_flatMap, List.map_map]
    have : ∀ l : List Item, (∀ x ∈ l, x ∈ e.items ∧ x.kind = .binary) →
        (((l.map fun x => (nodeRecs S C u e s0 x q).length).sum : Nat) : Int) = (l.map ((fun b : BoxLine =>
          (1 + (b.hi .x - b.lo .x) / b.step .x) * (1 + (b.hi .y - b.lo .y) / b.step .y) *
            (1 + (b.hi .z - b.lo .z) / b.step .z)) ∘ fun x : Item =>
          (⟨fun a => x.gbbox a.lo - e.giboxLo a, fun a => x.gbbox a.hi - e.giboxLo a, x.step⟩ : BoxLine))).sum := by
      intro l
      induction l with
      | nil => intro _; rfl
      | cons x l ih =>
        intro hl
        obtain ⟨h1, h2⟩ := hl x (by simp)
        have hs := fun a => (hb x h1 h2 a).2.2
        rw [List.map_cons, List.map_cons, List.sum_cons, List.sum_cons, Nat.cast_add, ih fun y hy => hl y (by simp [hy])]
        congr 1
        simp only [Function.comp]
        have hl := fileNodes_length (lo := fun a => x.gbbox a.lo - e.giboxLo a)
          (hi := fun a => x.gbbox a.hi - e.giboxLo a) hs (fun a => by have := ho x h1 h2 a; omega)
        rw [← hl, ← record_nodes S C u e s0 (q := q) hs, List.length_map]
    exact this _ fun x hx => by
      obtain ⟨h1, h2⟩ := List.mem_filter.1 hx
      exact ⟨h1, by simpa using h2⟩
  generalize stepsIn e.win.1.toNat e.win.2.toNat n = st
  induction st with
  | nil => simp
  | cons q st ih =>
    rw [List.flatMap_cons, List.length_append, Nat.cast_add, ih, one, List.length_cons]
    push_cast
    ring

theorem numOut_toNat (w : BitVec 64 × BitVec 64) (h : w.1 ≤ w.2) (h2 : w.2.toNat - w.1.toNat + 1 < 2 ^ 64) :
    (numOut w).toNat = w.2.toNat - w.1.toNat + 1 := by
  unfold numOut
  rw [BitVec.toNat_add, BitVec.toNat_sub_of_le h, show (1 : BitVec 64).toNat = 1 from rfl, Nat.mod_eq_of_lt h2]

/-- The announced number of steps is the number in the file when the window lies inside the run and is shorter than
2^32 steps. -/
theorem header_count (hw : e.win.1 ≤ e.win.2) {n : Nat} (hin : e.win.2.toNat < n)
    (h32 : e.win.2.toNat - e.win.1.toNat + 1 < 2 ^ 32) :
    ((numOut e.win).extractLsb' 0 32).toNat = (stepsIn e.win.1.toNat e.win.2.toNat n).length := by
  rw [window_count hw hin, BitVec.extractLsb'_toNat, numOut_toNat _ hw (by omega), Nat.shiftRight_zero,
    Nat.mod_eq_of_lt h32]

/-- A window that reaches beyond the run is announced in full although the steps beyond are never written. -/
theorem header_overstates (hw : e.win.1 ≤ e.win.2) {n : Nat} (hin : n ≤ e.win.2.toNat)
    (h32 : e.win.2.toNat - e.win.1.toNat + 1 < 2 ^ 32) :
    (stepsIn e.win.1.toNat e.win.2.toNat n).length < ((numOut e.win).extractLsb' 0 32).toNat := by
  have e1 : ((numOut e.win).extractLsb' 0 32).toNat = e.win.2.toNat - e.win.1.toNat + 1 := by
    rw [BitVec.extractLsb'_toNat, numOut_toNat _ hw (by omega), Nat.shiftRight_zero, Nat.mod_eq_of_lt h32]
  rw [e1, ← window_count hw (Nat.lt_succ_self e.win.2.toNat)]
  rw [stepsIn_succ, if_pos ⟨hw, le_rfl⟩, List.length_append, List.length_singleton, Nat.lt_succ_iff]
  unfold stepsIn
  exact (List.Sublist.filter _ (List.range_sublist.2 hin)).length_le

end

/-- A window of 2^32 steps is announced as empty. -/
theorem header_wraps : (numOut (0, 0xFFFFFFFF)).extractLsb' 0 32 = 0 := by decide

/-- Without a window card the file announces as many steps as the run has, and `process.dat` says 1 to that number. -/
theorem default_announced (N : BitVec 64) (e : Env) (h : e.win = window none N) :
    numOut e.win = N ∧ stepLine e = (1, N) := by
  have q : N - 1 - 0 + 1 = N := by bv_omega
  have q' : N - 1 + 1 = N := by bv_omega
  unfold stepLine
  rw [h]
  exact ⟨q, by simp only [window, Option.getD_none, q']; rfl⟩

/-- With a window, `process.dat` gives the first and the last step of the window counted from one. -/
theorem window_announced (e : Env) (h : e.win.2.toNat + 1 < 2 ^ 64) (hw : e.win.1.toNat ≤ e.win.2.toNat) :
    (stepLine e).1.toNat = e.win.1.toNat + 1 ∧ (stepLine e).2.toNat = e.win.2.toNat + 1 := by
  unfold stepLine
  constructor <;> rw [BitVec.toNat_add, show (1 : BitVec 64).toNat = 1 from rfl] <;> omega

/-- Size of a record in bytes. -/
theorem record_bytes (bits : ℝ → BitVec 32) (r : Rec) (h : r.values.length = 6) : (encRec bits r).length = 36 := by
  obtain ⟨t, vs⟩ := r
  match vs, h with
  | [_, _, _, _, _, _], _ => rfl

/-- The `p`-th record occupies the bytes `8 + 36 p` to `8 + 36 p + 35`. -/
theorem record_position (bits : ℝ → BitVec 32) (n : BitVec 64) (dt : BitVec 32) (rs : List Rec)
    (h6 : ∀ r ∈ rs, r.values.length = 6) (p : Nat) (hp : p < rs.length) :
    ((header n dt ++ rs.flatMap (encRec bits)).drop (8 + 36 * p)).take 36 = encRec bits rs[p] := by
  have h8 : (header n dt).length = 8 := rfl
  rw [List.drop_append, h8, List.drop_eq_nil_of_le (by omega), List.nil_append, Nat.add_sub_cancel_left]
  induction rs generalizing p with
  | nil => simp at hp
  | cons r rs ih =>
    rw [List.flatMap_cons]
    have hr := record_bytes bits r (h6 r (by simp))
    cases p with
    | zero => simp [List.take_append, hr]
    | succ p =>
      rw [List.drop_append, hr, List.drop_eq_nil_of_le (by omega), List.nil_append,
        show 36 * (p + 1) - 36 = 36 * p by omega]
      simpa using ih (fun r h => h6 r (by simp [h])) p (by simpa using hp)

/-! ### A concrete file -/

/-- One binary observer on two nodes, window of steps 1 to 2. -/
def exEnv : Env :=
  { items := [⟨.binary, fun f => match f with | .xlo => 1 | .xhi => 3 | .ylo => 1 | .yhi => 1 | .zlo => 1 | .zhi => 1,
      fun _ => 2, 0⟩]
    win := (1, 2)
    numFreq := 1
    omega := fun _ => 0
    wave := fun _ _ => 0
    giboxLo := fun _ => 1 }

example : BoxFits exEnv := by
  intro x hx _ a
  simp [exEnv] at hx
  subst hx
  cases a <;> (unfold Fits; simp [exEnv, Axis.lo, Axis.hi])
example : perStep exEnv = 2 := by decide +kernel
example : fileNodes (fun _ => 0) (fun a => if a = .x then 2 else 0) (fun _ => 2) = [(0, 0, 0), (2, 0, 0)] := by decide +kernel

end Vulture.C34
