import Verif.Model.Reader
import Verif.Props.C34_Binary
/-
C50: the companion reader returns exactly the recorded fields.
-/
set_option linter.unusedSimpArgs false
set_option linter.unusedVariables false
namespace Vulture.C50
open Vulture Run Spec C35 C32 C34 Reader

/-! ### Lists cut into blocks -/

theorem drop_blocks {α β : Type} (f : α → List β) (l : List α) (k : Nat) (hk : k < l.length) :
    (l.flatMap f).drop ((l.take k).map fun x => (f x).length).sum = f l[k] ++ (l.drop (k + 1)).flatMap f := by
  induction l generalizing k with
  | nil => simp at hk
  | cons x l ih =>
    cases k with
    | zero => simp
    | succ k =>
      have := ih k (by simpa using hk)
      simp only [List.flatMap_cons, List.take_succ_cons, List.map_cons, List.sum_cons, List.drop_append,
        List.getElem_cons_succ, List.drop_succ_cons]
      rw [List.drop_eq_nil_of_le (by omega), List.nil_append, Nat.add_sub_cancel_left, this]

theorem sum_const {α : Type} (l : List α) (g : α → Nat) (L : Nat) (h : ∀ x ∈ l, g x = L) : (l.map g).sum = l.length * L := by
  induction l with
  | nil => simp
  | cons x l ih => simp [h x (by simp), ih fun y hy => h y (by simp [hy])]; ring

theorem drop_uniform {α β : Type} (f : α → List β) (l : List α) (L : Nat) (hL : ∀ x ∈ l, (f x).length = L) (k : Nat)
    (hk : k < l.length) : (l.flatMap f).drop (k * L) = f l[k] ++ (l.drop (k + 1)).flatMap f := by
  rw [← drop_blocks f l k hk, sum_const _ _ L fun x hx => hL x (List.mem_of_mem_take hx), List.length_take, Nat.min_eq_left hk.le]

theorem get_uniform {α β : Type} (f : α → List β) (l : List α) (L : Nat) (hL : ∀ x ∈ l, (f x).length = L) (k r : Nat)
    (hk : k < l.length) (hr : r < L) : (l.flatMap f)[k * L + r]? = (f l[k])[r]? := by
  rw [← List.getElem?_drop, drop_uniform f l L hL k hk, List.getElem?_append_left]
  rw [hL _ (List.getElem_mem hk)]; exact hr

theorem length_uniform {α β : Type} (f : α → List β) (l : List α) (L : Nat) (hL : ∀ x ∈ l, (f x).length = L) :
    (l.flatMap f).length = l.length * L := by
  rw [List.length_flatMap]; exact sum_const l _ L hL

/-- The nodes of a box, x fastest. -/
theorem node_at (X Y Z : List Int) (i j k : Nat) (hi : i < X.length) (hj : j < Y.length) (hk : k < Z.length) :
    (Z.flatMap fun z => Y.flatMap fun y => X.map fun x => (x, y, z))[i + X.length * (j + Y.length * k)]? =
      some (X[i], Y[j], Z[k]) := by
  have e : i + X.length * (j + Y.length * k) = k * (Y.length * X.length) + (j * X.length + i) := by ring
  have inner : ∀ z : Int, ∀ y ∈ Y, (X.map fun x => (x, y, z)).length = X.length := fun z y _ => List.length_map ..
  have outer : ∀ z ∈ Z, (Y.flatMap fun y => X.map fun x => (x, y, z)).length = Y.length * X.length := fun z _ =>
    length_uniform _ _ _ (inner z)
  have lt : j * X.length + i < Y.length * X.length := by
    have : (j + 1) * X.length ≤ Y.length * X.length := Nat.mul_le_mul_right _ hj
    rw [Nat.add_mul, Nat.one_mul] at this
    omega
  rw [e, get_uniform _ Z _ outer k _ hk lt, get_uniform _ Y _ (inner _) j i hj hi, List.getElem?_map,
    List.getElem?_eq_getElem hi]
  rfl

/-! ### The blocks of the file -/

theorem range_strided {lo hi step : Int} (h : 1 ≤ step) : Reader.range lo step hi = strided lo hi step := by
  unfold Reader.range strided; rw [if_neg (by omega)]

section
variable (S : Sim) (C : CRef → ℝ) (u : Nat → Loc → ℝ) (e : Env) (s0 : Loc → ℝ) (bits : ℝ → BitVec 32)

/-- The line of an observer in `process.dat`. -/
def lineOf (x : Item) : BoxLine :=
  ⟨fun a => x.gbbox a.lo - e.giboxLo a, fun a => x.gbbox a.hi - e.giboxLo a, x.step⟩

theorem boxLines_eq : boxLines e = (e.items.filter fun x => x.kind = .binary).map (lineOf e) := rfl

theorem axisNodes_eq {x : Item} (hs : ∀ a, 1 ≤ x.step a) (a : Axis) :
    axisNodes (lineOf e x) a = strided (x.gbbox a.lo - e.giboxLo a) (x.gbbox a.hi - e.giboxLo a) (x.step a) :=
  range_strided (hs a)

/-- The records of an observer in one step, as words per node. -/
theorem records_eq {x : Item} (hs : ∀ a, 1 ≤ x.step a) (q : Nat) :
    nodeRecs S C u e s0 x q = ((axisNodes (lineOf e x) .z).flatMap fun k => (axisNodes (lineOf e x) .y).flatMap fun j =>
      (axisNodes (lineOf e x) .x).map fun i => (i, j, k)).map fun t =>
        (⟨t, fieldsAt (S.state C u s0 q) (t.1 + e.giboxLo .x, t.2.1 + e.giboxLo .y, t.2.2 + e.giboxLo .z)⟩ : Rec) := by
  have h : boxNodes x.gbbox x.step = some ((strided (x.gbbox .zlo) (x.gbbox .zhi) (x.step .z)).flatMap fun k =>
      (strided (x.gbbox .ylo) (x.gbbox .yhi) (x.step .y)).flatMap fun j =>
        (strided (x.gbbox .xlo) (x.gbbox .xhi) (x.step .x)).map fun i => (i, j, k)) := by
    simp [boxNodes, forStep, hs .x, hs .y, hs .z]
  unfold nodeRecs
  rw [h]
  simp only [axisNodes_eq e hs, Axis.lo, Axis.hi]
  rw [← strided_shift, ← strided_shift, ← strided_shift]
  simp only [Option.getD_some, List.map_flatMap, List.map_map, List.flatMap_map, Function.comp_def, sub_add_cancel]

theorem records_count {x : Item} (hs : ∀ a, 1 ≤ x.step a) (q : Nat) :
    (nodeRecs S C u e s0 x q).length = count (lineOf e x) .z * count (lineOf e x) .y * count (lineOf e x) .x := by
  rw [records_eq S C u e s0 hs, List.length_map,
    length_uniform _ _ (count (lineOf e x) .y * count (lineOf e x) .x) fun z _ =>
      (length_uniform _ _ (count (lineOf e x) .x) fun y _ => List.length_map ..)]
  unfold count; ring

/-- The bytes of an observer in one step. -/
def block (x : Item) (q : Nat) : List Byte := (nodeRecs S C u e s0 x q).flatMap (encRec bits)

theorem block_length {x : Item} (hs : ∀ a, 1 ≤ x.step a) (q : Nat) :
    (block S C u e s0 bits x q).length = blockSize (lineOf e x) := by
  unfold block
  rw [length_uniform _ _ 36 fun r hr => record_bytes bits r (values_six S C u e s0 hr), records_count S C u e s0 hs]
  unfold blockSize; ring

theorem words_block (x : Item) (q : Nat) :
    words (block S C u e s0 bits x q) = some ((nodeRecs S C u e s0 x q).flatMap (recWords bits)) := words_recs bits _

/-- The words of one record. -/
def nodeWords (q : Nat) (t : Int × Int × Int) : List (BitVec 32) :=
  [BitVec.ofInt 32 t.1, BitVec.ofInt 32 t.2.1, BitVec.ofInt 32 t.2.2] ++
    fieldList.map fun fc => bits (S.state C u s0 q (.fld fc (t.1 + e.giboxLo .x) (t.2.1 + e.giboxLo .y) (t.2.2 + e.giboxLo .z)))

theorem element_block {x : Item} (hs : ∀ a, 1 ≤ x.step a) (q c i j k : Nat) (hc : c < 9)
    (hi : i < count (lineOf e x) .x) (hj : j < count (lineOf e x) .y) (hk : k < count (lineOf e x) .z) :
    element (count (lineOf e x) .x) (count (lineOf e x) .y) ((nodeRecs S C u e s0 x q).flatMap (recWords bits)) c i j k =
      (nodeWords S C u e s0 bits q ((axisNodes (lineOf e x) .x)[i], (axisNodes (lineOf e x) .y)[j],
        (axisNodes (lineOf e x) .z)[k]))[c]? := by
  unfold element
  have h9 : ∀ r ∈ nodeRecs S C u e s0 x q, (recWords bits r).length = 9 := by
    intro r hr
    have := values_six S C u e s0 hr
    simp [recWords, this]
  have nd := node_at (axisNodes (lineOf e x) .x) (axisNodes (lineOf e x) .y) (axisNodes (lineOf e x) .z) i j k hi hj hk
  set r := i + (axisNodes (lineOf e x) .x).length * (j + (axisNodes (lineOf e x) .y).length * k) with hr
  have hlt : r < (nodeRecs S C u e s0 x q).length := by
    rw [records_eq S C u e s0 hs, List.length_map]
    exact (List.getElem?_eq_some_iff.1 nd).1
  have er : c + 9 * (i + count (lineOf e x) .x * (j + count (lineOf e x) .y * k)) = r * 9 + c := by
    rw [hr]; unfold count; ring
  rw [er, get_uniform _ _ 9 h9 r c hlt hc]
  have this : (nodeRecs S C u e s0 x q)[r]? = some (nodeRecs S C u e s0 x q)[r] := List.getElem?_eq_getElem hlt
  conv_lhs at this => rw [records_eq S C u e s0 hs, List.getElem?_map, nd]
  replace this := this.symm
  rw [Option.some.inj this]
  simp only [recWords, nodeWords, fieldsAt, List.map_map, Function.comp_def]

theorem axis_fits {x : Item} (hx : x ∈ e.items) (hk : x.kind = .binary) (hb : BoxFits e) {a : Axis} {i : Int}
    (h : i ∈ axisNodes (lineOf e x) a) : Fits i := by
  have hs := hb x hx hk
  rw [axisNodes_eq e (fun a => (hs a).2.2), ← everyNth_eq (hs a).2.2] at h
  exact everyNth_fits h (hs a).1 (hs a).2.1

theorem map_range_get {α β : Type} (l : List α) (f : Nat → Option β) (g : α → β) (h : ∀ i (hi : i < l.length), f i = some (g l[i])) :
    (List.range l.length).map f = l.map fun x => some (g x) := by
  apply List.ext_getElem (by simp)
  intro i h1 h2
  simp at h1
  simp [h i h1]

variable {e} in
theorem count_pos (hb : BoxFits e) {x : Item} (hx : x ∈ e.items) (hk : x.kind = .binary) {a : Axis}
    (ho : x.gbbox a.lo ≤ x.gbbox a.hi) : 0 < count (lineOf e x) a := by
  have hs := fun a => (hb x hx hk a).2.2
  unfold count
  rw [axisNodes_eq e hs]
  unfold strided
  rw [List.length_map, List.length_range]
  have : 0 ≤ (x.gbbox a.hi - e.giboxLo a - (x.gbbox a.lo - e.giboxLo a)) / x.step a :=
    Int.ediv_nonneg (by omega) (by have := hs a; omega)
  omega

/-- The coordinate assertions of the reader hold for the block of an observer. -/
theorem coordinates_ok {x : Item} (hx : x ∈ e.items) (hk : x.kind = .binary) (hb : BoxFits e)
    (ho : ∀ a : Axis, x.gbbox a.lo ≤ x.gbbox a.hi) (q : Nat) :
    coordinatesMatch (lineOf e x) ((nodeRecs S C u e s0 x q).flatMap (recWords bits)) = true := by
  have hs := fun a => (hb x hx hk a).2.2
  have pos : ∀ a, 0 < count (lineOf e x) a := fun a => count_pos hb hx hk (ho a)
  have fit : ∀ a (i : Nat) (hi : i < count (lineOf e x) a), (BitVec.ofInt 32 (axisNodes (lineOf e x) a)[i]).toInt = (axisNodes (lineOf e x) a)[i] :=
    fun a i hi => fits_roundtrip (axis_fits e hx hk hb (List.getElem_mem hi))
  unfold coordinatesMatch
  simp only [decide_eq_true_eq]
  refine ⟨?_, ?_, ?_⟩
  · exact map_range_get _ _ (fun x => x) fun i hi => by
      rw [element_block S C u e s0 bits hs q 0 i 0 0 (by omega) hi (pos _) (pos _)]
      simp only [nodeWords, List.cons_append, List.getElem?_cons_zero, Option.map_some]
      rw [fit .x i hi]
  · exact map_range_get _ _ (fun x => x) fun i hi => by
      rw [element_block S C u e s0 bits hs q 1 0 i 0 (by omega) (pos _) hi (pos _)]
      simp only [nodeWords, List.cons_append, List.getElem?_cons_zero, List.getElem?_cons_succ, Option.map_some]
      rw [fit .y i hi]
  · exact map_range_get _ _ (fun x => x) fun i hi => by
      rw [element_block S C u e s0 bits hs q 2 0 0 i (by omega) (pos _) (pos _) hi]
      simp only [nodeWords, List.cons_append, List.getElem?_cons_zero, List.getElem?_cons_succ, Option.map_some]
      rw [fit .z i hi]

/-! ### Positions -/

/-- Binary observers. -/
def binaries : List Item := e.items.filter fun x => x.kind = .binary

theorem mem_binaries {x : Item} (h : x ∈ binaries e) : x ∈ e.items ∧ x.kind = .binary := by
  obtain ⟨h1, h2⟩ := List.mem_filter.1 h
  exact ⟨h1, by simpa using h2⟩

variable {e} in
theorem time_block {op : Nat} (hop : op < (binaries e).length) :
    timeBlock (boxLines e) = preSkip (boxLines e) op + blockSize (lineOf e (binaries e)[op]) + postSkip (boxLines e) op := by
  have hl : op < (boxLines e).length := by rw [boxLines_eq, List.length_map]; exact hop
  have e1 : (boxLines e)[op] = lineOf e (binaries e)[op] := by
    simp only [boxLines_eq, List.getElem_map]; rfl
  unfold timeBlock preSkip postSkip
  conv_lhs => rw [← List.take_append_drop op (boxLines e), List.drop_eq_getElem_cons hl, e1]
  rw [List.map_append, List.sum_append, List.map_cons, List.sum_cons]
  omega

/-- The bytes of one step. -/
def stepBytes (q : Nat) : List Byte := (binaries e).flatMap fun x => block S C u e s0 bits x q

theorem stepBytes_length (hb : BoxFits e) (q : Nat) : (stepBytes S C u e s0 bits q).length = timeBlock (boxLines e) := by
  unfold stepBytes timeBlock
  rw [List.length_flatMap, boxLines_eq, List.map_map]
  congr 1
  refine List.map_congr_left fun x hx => ?_
  obtain ⟨h1, h2⟩ := mem_binaries e hx
  exact block_length S C u e s0 bits (fun a => (hb x h1 h2 a).2.2) q

/-- The file: header and steps. -/
theorem file_eq (dtb : BitVec 32) {dt : ℝ} {n : Nat} (hn : n ≤ 2 ^ 64) {out : Out} (h : outputs S C u e dt s0 n = some out) :
    impulseDat bits e dtb out = header (numOut e.win) dtb ++
      (stepsIn e.win.1.toNat e.win.2.toNat n).flatMap (stepBytes S C u e s0 bits) := by
  unfold impulseDat
  rw [binary_records S C u e dt s0 hn h]
  congr 1
  simp only [List.flatMap_assoc]
  rfl

section
variable {S C u e s0 bits}
variable {file : List (BitVec 8)} {hd : List (BitVec 8)} {Q : List Nat} (hfile : file = hd ++ Q.flatMap (stepBytes S C u e s0 bits))
  (h8 : hd.length = 8) (hb : BoxFits e)
include hfile h8 hb

theorem file_length : file.length = 8 + Q.length * timeBlock (boxLines e) := by
  rw [hfile, List.length_append, h8, length_uniform _ _ _ fun q _ => stepBytes_length S C u e s0 bits hb q]

/-- Position of the block of observer `op` in the `m`-th step of the file. -/
theorem block_at {m op : Nat} (hm : m < Q.length) (hop : op < (binaries e).length) :
    (file.drop (8 + m * timeBlock (boxLines e) + preSkip (boxLines e) op)).take (blockSize (lineOf e (binaries e)[op])) =
      block S C u e s0 bits (binaries e)[op] Q[m] ∧
    8 + m * timeBlock (boxLines e) + preSkip (boxLines e) op + blockSize (lineOf e (binaries e)[op]) +
      postSkip (boxLines e) op = 8 + (m + 1) * timeBlock (boxLines e) := by
  have bl : ∀ x ∈ binaries e, ∀ q, (block S C u e s0 bits x q).length = blockSize (lineOf e x) := fun x hx q => by
    obtain ⟨h1, h2⟩ := mem_binaries e hx
    exact block_length S C u e s0 bits (fun a => (hb x h1 h2 a).2.2) q
  have pre : ∀ q, preSkip (boxLines e) op = (((binaries e).take op).map fun x => (block S C u e s0 bits x q).length).sum := by
    intro q
    unfold preSkip
    rw [boxLines_eq, ← List.map_take, List.map_map]
    congr 1
    exact List.map_congr_left fun x hx => (bl x (List.mem_of_mem_take hx) q).symm
  constructor
  · rw [hfile, List.drop_append, h8, List.drop_eq_nil_of_le (by omega), List.nil_append,
      show 8 + m * timeBlock (boxLines e) + preSkip (boxLines e) op - 8 = m * timeBlock (boxLines e) + preSkip (boxLines e) op by omega,
      ← List.drop_drop, drop_uniform _ _ _ (fun q _ => stepBytes_length S C u e s0 bits hb q) m hm]
    have k := drop_blocks (fun x => block S C u e s0 bits x Q[m]) (binaries e) op hop
    rw [← pre] at k
    have le : preSkip (boxLines e) op ≤ (stepBytes S C u e s0 bits Q[m]).length := by
      rw [stepBytes_length S C u e s0 bits hb]
      unfold preSkip timeBlock
      conv_rhs => rw [← List.take_append_drop op (boxLines e)]
      rw [List.map_append, List.sum_append]
      omega
    rw [List.drop_append_of_le_length le]
    unfold stepBytes at *
    rw [k, List.append_assoc, List.take_append_of_le_length (by rw [bl _ (List.getElem_mem hop)]),
      List.take_of_length_le (by rw [bl _ (List.getElem_mem hop)])]
  · have := time_block hop
    rw [Nat.add_mul, Nat.one_mul]; omega

/-- One pass of the reader. -/
theorem pass_ok {m op : Nat} (hm : m < Q.length) (hop : op < (binaries e).length)
    (ho : ∀ a : Axis, (binaries e)[op].gbbox a.lo ≤ (binaries e)[op].gbbox a.hi) {last : Int} (hl : 0 ≤ last) :
    pass file (boxLines e) op (lineOf e (binaries e)[op]) (8 + last * timeBlock (boxLines e)) (m + 1 - last - 1) =
      some ((nodeRecs S C u e s0 (binaries e)[op] Q[m]).flatMap (recWords bits), 8 + ((m : Int) + 1) * timeBlock (boxLines e)) := by
  obtain ⟨b1, b2⟩ := block_at hfile h8 hb hm hop
  have fl := file_length hfile h8 hb
  obtain ⟨x1, x2⟩ := mem_binaries e (List.getElem_mem hop)
  set x := (binaries e)[op] with hx
  set T := timeBlock (boxLines e) with hT
  have mT : (m + 1) * T ≤ Q.length * T := Nat.mul_le_mul_right _ hm
  have sz : 9 * count (lineOf e x) .x * count (lineOf e x) .y * count (lineOf e x) .z * 4 = blockSize (lineOf e x) := by
    unfold blockSize; ring
  have e1 : (if ((m : Int) + 1 - last - 1) ≠ 0 then fseek file (8 + last * T) (((m : Int) + 1 - last - 1) * T)
      else some (8 + last * T)) = some (8 + (m : Int) * T) := by
    split
    · unfold fseek
      have e2 : 8 + last * T + ((m : Int) + 1 - last - 1) * T = 8 + (m : Int) * T := by ring
      rw [e2, if_pos]
      refine ⟨by positivity, ?_⟩
      rw [fl]; push_cast
      have : (m : Int) * T ≤ Q.length * T := by
        have : m * T ≤ Q.length * T := Nat.mul_le_mul_right _ hm.le
        exact_mod_cast this
      omega
    · rename_i h
      have : (m : Int) = last := by omega
      rw [this]
  have e3 : fseek file (8 + (m : Int) * T) (preSkip (boxLines e) op) =
      some ((8 + m * T + preSkip (boxLines e) op : Nat) : Int) := by
    unfold fseek
    rw [if_pos]
    · push_cast; rfl
    · constructor
      · positivity
      · have : 8 + m * T + preSkip (boxLines e) op ≤ file.length := by omega
        exact_mod_cast this
  have e4 : fread file ((8 + m * T + preSkip (boxLines e) op : Nat) : Int)
      (9 * count (lineOf e x) .x * count (lineOf e x) .y * count (lineOf e x) .z) =
      some ((nodeRecs S C u e s0 x Q[m]).flatMap (recWords bits)) := by
    unfold fread
    rw [if_pos]
    · rw [Int.toNat_natCast, show 4 * (9 * count (lineOf e x) .x * count (lineOf e x) .y * count (lineOf e x) .z) =
        blockSize (lineOf e x) by omega, b1, words_block]
    · constructor
      · positivity
      · have : 8 + m * T + preSkip (boxLines e) op + 4 * (9 * count (lineOf e x) .x * count (lineOf e x) .y * count (lineOf e x) .z)
            ≤ file.length := by omega
        exact_mod_cast this
  have e5 := coordinates_ok S C u e s0 bits x1 x2 hb ho Q[m]
  have e6 : fseek file (((8 + m * T + preSkip (boxLines e) op : Nat) : Int) +
      4 * ((9 * count (lineOf e x) .x * count (lineOf e x) .y * count (lineOf e x) .z : Nat) : Int)) (postSkip (boxLines e) op) =
      some (8 + ((m : Int) + 1) * T) := by
    have e7 : ((8 + m * T + preSkip (boxLines e) op : Nat) : Int) +
      4 * ((9 * count (lineOf e x) .x * count (lineOf e x) .y * count (lineOf e x) .z : Nat) : Int) + (postSkip (boxLines e) op) =
      ((8 + (m + 1) * T : Nat) : Int) := by
      rw [← b2, ← sz]; push_cast; ring
    unfold fseek
    rw [e7, if_pos]
    · push_cast; rfl
    · constructor
      · positivity
      · have : 8 + (m + 1) * T ≤ file.length := by omega
        exact_mod_cast this
  unfold pass
  rw [e1, Option.bind_some, e3, Option.bind_some, e4, Option.bind_some, e5, if_neg (by simp), e6, Option.map_some]

/-- All passes. -/
theorem passes_ok {op : Nat} (hop : op < (binaries e).length)
    (ho : ∀ a : Axis, (binaries e)[op].gbbox a.lo ≤ (binaries e)[op].gbbox a.hi) (ts : List Int)
    (hts : ∀ t ∈ ts, 1 ≤ t ∧ t ≤ Q.length) {last : Int} (hl : 0 ≤ last) :
    passes file (boxLines e) op (lineOf e (binaries e)[op]) (8 + last * timeBlock (boxLines e)) last ts =
      some (ts.map fun t => (nodeRecs S C u e s0 (binaries e)[op] (Q[(t - 1).toNat]?.getD 0)).flatMap (recWords bits),
        8 + ts.getLastD last * timeBlock (boxLines e), ts.getLastD last) := by
  induction ts generalizing last with
  | nil => simp [passes]
  | cons t ts ih =>
    obtain ⟨t1, t2⟩ := hts t (by simp)
    obtain ⟨m, rfl⟩ : ∃ m : Nat, t = m + 1 := ⟨(t - 1).toNat, by omega⟩
    have hm : m < Q.length := by omega
    rw [passes]
    rw [pass_ok hfile h8 hb hm hop ho hl]
    simp only [Option.bind_eq_bind, Option.bind_some]
    rw [ih (fun s hs => hts s (by simp [hs])) (by omega)]
    have e1 : ((m : Int) + 1 - 1).toNat = m := by omega
    simp only [Option.bind_some, Option.pure_def, List.map_cons, List.getLastD_cons, e1, List.getElem?_eq_getElem hm,
      Option.getD_some]

/-- A step beyond the end of the file cannot be read. -/
theorem pass_limit {op : Nat} (hop : op < (binaries e).length)
    (ho : ∀ a : Axis, (binaries e)[op].gbbox a.lo ≤ (binaries e)[op].gbbox a.hi) {t last : Int} {r : List (BitVec 32) × Int}
    (h : pass file (boxLines e) op (lineOf e (binaries e)[op]) (8 + last * timeBlock (boxLines e)) (t - last - 1) = some r) :
    t ≤ Q.length ∧ r.2 = 8 + t * timeBlock (boxLines e) := by
  have fl := file_length hfile h8 hb
  obtain ⟨x1, x2⟩ := mem_binaries e (List.getElem_mem hop)
  have pos := fun a => count_pos (hb := hb) x1 x2 (ho a)
  set x := (binaries e)[op] with hx
  set T := timeBlock (boxLines e) with hT
  have hT' : T = preSkip (boxLines e) op + blockSize (lineOf e x) + postSkip (boxLines e) op := time_block hop
  unfold pass at h
  obtain ⟨p1, h1, h⟩ := Option.bind_eq_some_iff.1 h
  obtain ⟨p2, h2, h⟩ := Option.bind_eq_some_iff.1 h
  obtain ⟨w, h3, h⟩ := Option.bind_eq_some_iff.1 h
  split at h
  · exact absurd h (by simp)
  obtain ⟨p3, h5, h6⟩ := Option.map_eq_some_iff.1 h
  have sz : 9 * count (lineOf e x) .x * count (lineOf e x) .y * count (lineOf e x) .z * 4 = blockSize (lineOf e x) := by
    unfold blockSize; ring
  have e1 : p1 = 8 + (t - 1) * T := by
    split at h1
    · unfold fseek at h1
      split at h1
      · rw [← Option.some.inj h1]; ring
      · exact absurd h1 (by simp)
    · rename_i h'
      rw [← Option.some.inj h1, show last = t - 1 by omega]
  have e2 : p2 = p1 + preSkip (boxLines e) op := by
    unfold fseek at h2
    split at h2
    · exact (Option.some.inj h2).symm
    · exact absurd h2 (by simp)
  have e3 : p2 + blockSize (lineOf e x) ≤ file.length := by
    unfold fread at h3
    split at h3
    · rename_i h'
      rw [← sz]
      push_cast
      have := h'.2
      push_cast at this
      linarith
    · exact absurd h3 (by simp)
  have e5 : p3 = p2 + blockSize (lineOf e x) + postSkip (boxLines e) op := by
    unfold fseek at h5
    split at h5
    · rw [← Option.some.inj h5, ← sz]; push_cast; ring
    · exact absurd h5 (by simp)
  have hp : 0 < blockSize (lineOf e x) := by
    unfold blockSize
    have := pos .x; have := pos .y; have := pos .z
    positivity
  constructor
  · by_contra hc
    have : (Q.length : Int) ≤ t - 1 := by omega
    have : (Q.length : Int) * T ≤ (t - 1) * T := mul_le_mul_of_nonneg_right this (by positivity)
    rw [fl] at e3
    push_cast at e3
    omega
  · rw [← h6]
    simp only
    rw [e5, e2, e1]
    have : (T : Int) = preSkip (boxLines e) op + blockSize (lineOf e x) + postSkip (boxLines e) op := by exact_mod_cast hT'
    rw [show (t : Int) * T = (t - 1) * T + T by ring, this]; ring

theorem passes_limit {op : Nat} (hop : op < (binaries e).length)
    (ho : ∀ a : Axis, (binaries e)[op].gbbox a.lo ≤ (binaries e)[op].gbbox a.hi) (ts : List Int) {last : Int}
    {r : List (List (BitVec 32)) × Int × Int}
    (h : passes file (boxLines e) op (lineOf e (binaries e)[op]) (8 + last * timeBlock (boxLines e)) last ts = some r) :
    ∀ t ∈ ts, t ≤ Q.length := by
  induction ts generalizing last r with
  | nil => simp
  | cons t ts ih =>
    rw [passes] at h
    simp only [Option.bind_eq_bind, Option.bind_eq_some_iff] at h
    obtain ⟨a, h1, b, h2, h3⟩ := h
    obtain ⟨k1, k2⟩ := pass_limit hfile h8 hb hop ho h1
    rw [k2] at h2
    intro s hs
    rcases List.mem_cons.1 hs with rfl | hs
    · exact k1
    · exact ih h2 s hs
end

/-! ### The property -/

section
variable {n : Nat} {dt : ℝ} {out : Out}

theorem header_length (k : BitVec 64) (dtb : BitVec 32) : (header k dtb).length = 8 := rfl

theorem header_words (k : BitVec 64) (dtb : BitVec 32) (l : List Byte) :
    fread (header k dtb ++ l) 0 2 = some [k.extractLsb' 0 32, dtb] := by
  have h8 : (header k dtb).length = 8 := rfl
  unfold fread
  rw [if_pos ⟨le_refl _, by rw [List.length_append, h8]; push_cast; omega⟩]
  have e : ((header k dtb ++ l).drop (0 : Int).toNat).take (4 * 2) = header k dtb := by
    rw [Int.toNat_zero, List.drop_zero, List.take_append_of_le_length (by rw [h8]), List.take_of_length_le (by rw [h8])]
  rw [e]
  have := words_cons (k.extractLsb' 0 32) (le32 dtb)
  unfold header headCount
  rw [this]
  have e2 : words (le32 dtb) = some [dtb] := by
    have := words_cons dtb []
    rw [List.append_nil] at this
    rw [this]; rfl
  rw [e2]; rfl

theorem line_at {op : Nat} (hop : op < (binaries e).length) : (boxLines e)[op]? = some (lineOf e (binaries e)[op]) := by
  rw [boxLines_eq, List.getElem?_map]
  show ((binaries e)[op]?).map _ = _
  rw [List.getElem?_eq_getElem hop]; rfl

/-- Number of steps the header announces, as the reader sees it. -/
theorem announced (hw : e.win.1.toNat ≤ e.win.2.toNat) (h31 : e.win.2.toNat - e.win.1.toNat + 1 < 2 ^ 31) :
    ((numOut e.win).extractLsb' 0 32).toInt = ((e.win.2.toNat - e.win.1.toNat + 1 : Nat) : Int) := by
  have h := numOut_toNat _ hw (by omega)
  have e1 : ((numOut e.win).extractLsb' 0 32).toNat = e.win.2.toNat - e.win.1.toNat + 1 := by
    rw [BitVec.extractLsb'_toNat, h, Nat.shiftRight_zero, Nat.mod_eq_of_lt (by omega)]
  rw [BitVec.toInt_eq_toNat_of_lt (by rw [e1]; omega), e1]

/-- The requested steps: all of them if none are given. -/
noncomputable def requested (timeNum : List Int) : List Int :=
  if timeNum = [] then (List.range (e.win.2.toNat - e.win.1.toNat + 1)).map fun (m : Nat) => (m + 1 : Int)
  else timeNum.mergeSort

/-- **C50.** The companion reader returns, for every observer of the file and every choice of steps of the window, the nodes the card
describes and exactly the fields the run had at those nodes at the beginning of those steps. -/
theorem reader_returns_partial (real : BitVec 32 → ℝ) (dtb : BitVec 32) (hb : BoxFits e) (hn : n ≤ 2 ^ 64)
    (h : outputs S C u e dt s0 n = some out) (hw : e.win.1.toNat ≤ e.win.2.toNat) (hin : e.win.2.toNat < n)
    (h31 : e.win.2.toNat - e.win.1.toNat + 1 < 2 ^ 31) {op : Nat} (hop : op < (binaries e).length)
    (ho : ∀ a : Axis, (binaries e)[op].gbbox a.lo ≤ (binaries e)[op].gbbox a.hi) (timeNum : List Int)
    (ht : ∀ t ∈ timeNum, 1 ≤ t ∧ t ≤ ((e.win.2.toNat - e.win.1.toNat + 1 : Nat) : Int)) :
    ∃ r, readImpulse3D real (impulseDat bits e dtb out) (boxLines e) op timeNum = some r ∧
      (∀ a, r.axisOf a = everyNth ((binaries e)[op].gbbox a.lo - e.giboxLo a) ((binaries e)[op].gbbox a.hi - e.giboxLo a)
        ((binaries e)[op].step a)) ∧
      (requested e timeNum).Perm (if timeNum = [] then (List.range (e.win.2.toNat - e.win.1.toNat + 1)).map fun (m : Nat) => (m + 1 : Int) else timeNum) ∧
      r.times = (requested e timeNum).map (fun (t : Int) => real dtb * ((t : ℝ) - 1)) ∧
      ∀ (c : Nat) (hc : c < 6) (i j k m : Nat) (hi : i < (r.axisOf .x).length) (hj : j < (r.axisOf .y).length)
        (hk : k < (r.axisOf .z).length) (hm : m < (requested e timeNum).length),
        r.field c i j k m = some (bits (S.state C u s0 (e.win.1.toNat + ((requested e timeNum)[m] - 1).toNat)
          (.fld ([Fc.ex, .ey, .ez, .hx, .hy, .hz][c]'hc) ((r.axisOf .x)[i] + e.giboxLo .x) ((r.axisOf .y)[j] + e.giboxLo .y)
            ((r.axisOf .z)[k] + e.giboxLo .z)))) := by
  obtain ⟨x1, x2⟩ := mem_binaries e (List.getElem_mem hop)
  have hs := fun a => (hb _ x1 x2 a).2.2
  have fe := file_eq S C u e s0 bits dtb hn h
  have an := announced e hw h31
  have wl := window_list hw hin
  set Q := stepsIn e.win.1.toNat e.win.2.toNat n with hQ
  have hQl : Q.length = e.win.2.toNat - e.win.1.toNat + 1 := by rw [wl, List.length_range']
  have h8 := header_length (numOut e.win) dtb
  have fl := file_length fe h8 hb
  have bo : (boxLines e)[op]? = some (lineOf e (binaries e)[op]) := line_at e hop
  have pm : (requested e timeNum).Perm (if timeNum = [] then (List.range (e.win.2.toNat - e.win.1.toNat + 1)).map fun (m : Nat) => (m + 1 : Int) else timeNum) := by
    unfold requested
    split
    · exact List.Perm.refl _
    · exact List.mergeSort_perm ..
  have rq : ∀ t ∈ requested e timeNum, 1 ≤ t ∧ t ≤ Q.length := by
    intro t htt
    have := pm.mem_iff.1 htt
    split at this
    · obtain ⟨m, hm, rfl⟩ := List.mem_map.1 this
      rw [List.mem_range] at hm
      rw [hQl]; omega
    · rw [hQl]; exact ht t this
  have ne : requested e timeNum ≠ [] := by
    intro hnil
    have := pm.length_eq
    rw [hnil] at this
    split at this
    · simp at this
    · rename_i h0; exact h0 (List.length_eq_zero_iff.1 this.symm)
  have ps := passes_ok fe h8 hb hop ho (requested e timeNum) rq (last := 0) (le_refl _)
  have hl : (requested e timeNum).getLastD 0 ∈ requested e timeNum := by
    rw [List.getLastD_eq_getLast?, List.getLast?_eq_some_getLast ne]; exact List.getLast_mem ne
  have lb := rq _ hl
  refine ⟨⟨(requested e timeNum).map fun (t : Int) => real dtb * ((t : ℝ) - 1), axisNodes (lineOf e (binaries e)[op]),
    (requested e timeNum).map fun t => (nodeRecs S C u e s0 (binaries e)[op] (Q[(t - 1).toNat]?.getD 0)).flatMap (recWords bits)⟩, ?_, ?_, pm, rfl, ?_⟩
  · have hf : fread (impulseDat bits e dtb out) 0 2 = some [(numOut e.win).extractLsb' 0 32, dtb] := by
      rw [fe]; exact header_words _ _ _
    have tq : (if timeNum = [] then (List.range ((numOut e.win).extractLsb' 0 32).toInt.toNat).map fun (m : Nat) => (m + 1 : Int)
        else timeNum.mergeSort) = requested e timeNum := by
      rw [an, Int.toNat_natCast]; rfl
    have sk : fseek (impulseDat bits e dtb out) (8 + (requested e timeNum).getLastD 0 * timeBlock (boxLines e))
        ((((numOut e.win).extractLsb' 0 32).toInt - (requested e timeNum).getLastD 0) * timeBlock (boxLines e)) =
        some (8 + ((numOut e.win).extractLsb' 0 32).toInt * timeBlock (boxLines e)) := by
      unfold fseek
      have e1 : 8 + (requested e timeNum).getLastD 0 * timeBlock (boxLines e) +
        (((numOut e.win).extractLsb' 0 32).toInt - (requested e timeNum).getLastD 0) * timeBlock (boxLines e) =
        8 + ((numOut e.win).extractLsb' 0 32).toInt * timeBlock (boxLines e) := by ring
      rw [e1, if_pos]
      rw [an, fl, hQl]
      push_cast
      exact ⟨by positivity, le_refl _⟩
    have no : ¬ ∃ t ∈ requested e timeNum, t < 1 ∨ ((numOut e.win).extractLsb' 0 32).toInt < t := by
      rintro ⟨t, h1, h2⟩
      have := rq t h1
      rw [an] at h2
      omega
    have p8 : (8 : Int) + 0 * timeBlock (boxLines e) = 8 := by ring
    rw [p8] at ps
    unfold readImpulse3D
    rw [bo, Option.bind_some, hf, Option.bind_some, List.getElem?_cons_zero, Option.bind_some, List.getElem?_cons_succ,
      List.getElem?_cons_zero, Option.bind_some, tq]
    unfold Reader.body
    rw [if_neg (not_or.2 ⟨no, ne⟩), ps, Option.bind_some, sk, Option.bind_some, if_pos rfl]
  · intro a
    rw [everyNth_eq (hs a)]
    exact axisNodes_eq e hs a
  · intro c hc i j k m hi hj hk hm
    unfold Result.field
    simp only [List.getElem?_map, List.getElem?_eq_getElem hm, Option.map_some, Option.bind_eq_bind, Option.bind_some]
    have hr := rq _ (List.getElem_mem hm)
    have hq : ((requested e timeNum)[m] - 1).toNat < Q.length := by omega
    have qv : Q[((requested e timeNum)[m] - 1).toNat]?.getD 0 = e.win.1.toNat + ((requested e timeNum)[m] - 1).toNat := by
      rw [List.getElem?_eq_getElem hq, Option.getD_some]
      simp only [wl, List.getElem_range']
      omega
    rw [qv]
    have el := element_block S C u e s0 bits hs (e.win.1.toNat + ((requested e timeNum)[m] - 1).toNat) (c + 3) i j k (by omega) hi hj hk
    refine el.trans ?_
    unfold nodeWords fieldList
    have : c = 0 ∨ c = 1 ∨ c = 2 ∨ c = 3 ∨ c = 4 ∨ c = 5 := by omega
    rcases this with rfl | rfl | rfl | rfl | rfl | rfl <;> rfl

/-- Finding: a window that reaches beyond the run is announced in full; asked for all steps, the reader fails. -/
theorem overstated_unreadable (real : BitVec 32 → ℝ) (dtb : BitVec 32) (hb : BoxFits e) (hn : n ≤ 2 ^ 64)
    (h : outputs S C u e dt s0 n = some out) (hw : e.win.1.toNat ≤ e.win.2.toNat) (hin : n ≤ e.win.2.toNat)
    (h31 : e.win.2.toNat - e.win.1.toNat + 1 < 2 ^ 31) {op : Nat} (hop : op < (binaries e).length)
    (ho : ∀ a : Axis, (binaries e)[op].gbbox a.lo ≤ (binaries e)[op].gbbox a.hi) :
    readImpulse3D real (impulseDat bits e dtb out) (boxLines e) op [] = none := by
  have fe := file_eq S C u e s0 bits dtb hn h
  have an := announced e hw h31
  have h8 := header_length (numOut e.win) dtb
  have hf : fread (impulseDat bits e dtb out) 0 2 = some [(numOut e.win).extractLsb' 0 32, dtb] := by
    rw [fe]; exact header_words _ _ _
  have bo : (boxLines e)[op]? = some (lineOf e (binaries e)[op]) := line_at e hop
  cases hr : readImpulse3D real (impulseDat bits e dtb out) (boxLines e) op [] with
  | none => rfl
  | some r =>
    exfalso
    unfold readImpulse3D at hr
    rw [bo, Option.bind_some, hf, Option.bind_some, List.getElem?_cons_zero, Option.bind_some, List.getElem?_cons_succ,
      List.getElem?_cons_zero, Option.bind_some, if_pos rfl, an, Int.toNat_natCast] at hr
    unfold Reader.body at hr
    split at hr
    · simp at hr
    · obtain ⟨p, hp, -⟩ := Option.bind_eq_some_iff.1 hr
      have p8 : (8 : Int) = 8 + 0 * timeBlock (boxLines e) := by ring
      rw [p8] at hp
      have := passes_limit fe h8 hb hop ho _ hp ((e.win.2.toNat - e.win.1.toNat : Nat) + 1 : Int)
        (List.mem_map.2 ⟨e.win.2.toNat - e.win.1.toNat, List.mem_range.2 (by omega), rfl⟩)
      have lt := header_overstates e (by rw [BitVec.le_def]; exact hw) hin (by omega)
      have : (stepsIn e.win.1.toNat e.win.2.toNat n).length < e.win.2.toNat - e.win.1.toNat + 1 := by
        have e1 := numOut_toNat _ hw (by omega)
        rw [BitVec.extractLsb'_toNat, e1, Nat.shiftRight_zero, Nat.mod_eq_of_lt (by omega)] at lt
        exact lt
      omega

/-- Finding: the reader's times start from zero although the first step of the window need not be the first of the run: the time it
gives is right only if the window starts with the run. -/
theorem times_from_window (dt : ℝ) (hdt : dt ≠ 0) (t : Int) (h1 : 1 ≤ t) :
    dt * (t - 1 : ℝ) = (((e.win.1.toNat + (t - 1).toNat : Nat) : ℝ)) * dt ↔ e.win.1.toNat = 0 := by
  generalize e.win.1.toNat = k
  obtain ⟨m, rfl⟩ : ∃ m : Nat, t = m + 1 := ⟨(t - 1).toNat, by omega⟩
  have e1 : ((m : Int) + 1 - 1).toNat = m := by omega
  rw [e1]
  push_cast
  constructor
  · intro h
    have : (k : ℝ) * dt = 0 := by linear_combination -h
    rcases mul_eq_zero.1 this with h | h
    · exact_mod_cast h
    · exact absurd h hdt
  · intro h; rw [h]; push_cast; ring
end
end

/-! ### A concrete file: two nodes of one observer, steps 1 and 2 of a run of three; the second step is asked for -/

theorem ex_fits : BoxFits exEnv := by
  intro x hx _ a
  simp [exEnv] at hx
  subst hx
  cases a <;> (unfold Fits; simp [exEnv, Axis.lo, Axis.hi])

example (S : Sim) (C : CRef → ℝ) (u : Nat → Loc → ℝ) (s0 : Loc → ℝ) (bits : ℝ → BitVec 32) (real : BitVec 32 → ℝ) (dtb : BitVec 32)
    (dt : ℝ) : ∃ out r, outputs S C u exEnv dt s0 3 = some out ∧
      readImpulse3D real (impulseDat bits exEnv dtb out) (boxLines exEnv) 0 [2] = some r ∧
      r.axisOf .x = [0, 2] ∧ r.field 2 1 0 0 0 = some (bits (S.state C u s0 2 (.fld .ez 3 1 1))) := by
  obtain ⟨out, h⟩ := outputs_finish S C u exEnv dt s0 (fun x h k a => (ex_fits x h k a).2.2) 3
  have hop : 0 < (binaries exEnv).length := by decide +kernel
  obtain ⟨r, h1, h2, h3, h4, h5⟩ := reader_returns_partial S C u exEnv s0 bits real dtb ex_fits (by norm_num) h (by decide +kernel)
    (by decide +kernel) (by decide +kernel) hop (by intro a; cases a <;> decide +kernel +revert) [2] (by decide +kernel)
  have ax : r.axisOf .x = [0, 2] := by rw [h2]; clear * -; decide +kernel +revert
  have ay : r.axisOf .y = [0] := by rw [h2]; clear * -; decide +kernel +revert
  have az : r.axisOf .z = [0] := by rw [h2]; clear * -; decide +kernel +revert
  have rq : requested exEnv [2] = [2] := by unfold requested; simp
  refine ⟨out, r, h, h1, ax, ?_⟩
  have := h5 2 (by decide) 1 0 0 0 (by rw [ax]; decide) (by rw [ay]; decide) (by rw [az]; decide) (by rw [rq]; decide)
  rw [this]
  simp only [rq, ax, ay, az]
  rfl

end Vulture.C50
