import Verif.Lemmas.SheetRun
import Verif.Spec.SheetMesh
import Verif.Props.C15_DivB
import Verif.Props.C25_Surface
import Verif.Lemmas.CavitySetup
import Verif.Props.C54_Memory
set_option linter.unusedSimpArgs false
set_option linter.unusedVariables false
/- C59: an impedance sheet in the mesh. -/
namespace Vulture.C59
open Spec C10 SheetRun
variable {K : Type*} [CommRing K] (C : CRef → K)

/-- A block of a sheet writes magnetic samples within half a cell of the sheet only. -/
theorem block_near (n : Nat) (w : SibcSurf) (ho : w.gbbox w.normal.lo = w.gbbox w.normal.hi) {fc : Fc} {q : Int × Int × Int} (hap : Apart w fc q)
    {i j k : Int} (ht : InLim (sibcLim w) i j k) : fldAt fc q ∉ (sibcHBlock n w (i, j, k)).writes := by
  obtain ⟨a, g, np⟩ := w
  obtain ⟨x, y, z⟩ := q
  obtain ⟨d, hd⟩ := hap
  obtain ⟨⟨h1, h2⟩, ⟨h3, h4⟩, h5, h6⟩ := ht
  intro hw
  cases a <;> cases d <;>
    simp [sibcLim, Face.isLo, Face.axis, Axis.lo, Axis.hi] at h1 h2 h3 h4 h5 h6 hd ho <;>
    simp [Block.writes, sibcHBlock, sibcAdj, sibcCorr, Axis.next, shift, coord, fldAt, Axis.h] at hw <;>
    rcases hw with h | h | h | h | h | h | h | h | h | h | h | h | h <;>
    obtain ⟨rfl, rfl, rfl, rfl⟩ := h <;>
    simp [samplePos, pos2] at hd <;> omega

theorem normal_near (w : SibcSurf) (ho : w.gbbox w.normal.lo = w.gbbox w.normal.hi) {fc : Fc} {q : Int × Int × Int} (hap : Apart w fc q)
    {i j k : Int} (ht : InLim (sibcLim w) i j k) : fldAt fc q ≠ fldAt w.normal.h (i, j, k) := by
  intro h
  refine block_near 0 w ho hap ht ?_
  rw [h]
  obtain ⟨a, g, np⟩ := w
  cases a <;> simp [Block.writes, sibcHBlock, fldAt]

/-- The loop over a sheet covers its squares. -/
theorem covers_iff (w : SibcSurf) (ho : w.gbbox w.normal.lo = w.gbbox w.normal.hi) (t : Int × Int × Int) :
    t ∈ boxLoop (sibcLim w) ↔ Covers w w.normal t := by
  obtain ⟨a, g, np⟩ := w
  obtain ⟨i, j, k⟩ := t
  rw [mem_boxLoop]
  constructor
  · rintro ⟨⟨h1, h2⟩, ⟨h3, h4⟩, h5, h6⟩
    refine ⟨rfl, ?_, ?_⟩
    · cases a <;> simp [sibcLim, Face.isLo, Face.axis, Axis.lo, Axis.hi, coord] at h1 h2 h3 h4 h5 h6 ho ⊢ <;> omega
    · intro b hb
      cases a <;> cases b <;> simp [sibcLim, Face.isLo, Face.axis, Axis.lo, Axis.hi, coord] at h1 h2 h3 h4 h5 h6 ho hb ⊢ <;> omega
  · rintro ⟨-, h1, h2⟩
    have hx := h2 .x; have hy := h2 .y; have hz := h2 .z
    cases a <;> simp [sibcLim, Face.isLo, Face.axis, Axis.lo, Axis.hi, coord] at h1 hx hy hz ho ⊢ <;> omega

/-- Signs and indices as the corrections have them. -/
def isFirst : Along → Bool | .first => true | .second => false
def isLow : Side → Bool | .a => true | .b => false

theorem mag_dir (a : Axis) (al : Along) : al.mag a = dirOf a (isFirst al) := by cases al <;> rfl
theorem foot_low (a : Axis) (side : Side) (q : Int × Int × Int) : foot a side q = lowFace a (isLow side) q := by cases side <;> rfl

/-- Sign of the term `∂E/∂normal` in Faraday's law at a sample on that side. -/
def sign (al : Along) (side : Side) : Int :=
  match al, side with
  | .first, .a => 1 | .first, .b => -1 | .second, .a => -1 | .second, .b => 1

/-- Indices of the weights of a square's low and high edge. -/
def lowEdge : Along → Nat | .first => 2 | .second => 0
def highEdge : Along → Nat | .first => 3 | .second => 1

/-- The corrections of all sheets at a sample beside sheet `n` alone. -/
theorem sheet_adds (l : List SibcSurf) (hflat : ∀ w ∈ l, w.gbbox w.normal.lo = w.gbbox w.normal.hi) {n : Nat} {w : SibcSurf}
    (hn : l[n]? = some w) (al : Along) (side : Side) (q : Int × Int × Int) (hb : Beside w side q)
    (hap : ∀ n' w', l[n']? = some w' → n' ≠ n → Apart w' (al.mag w.normal).h q) (s : Loc → K) :
    Prog.run C (updateSibcH l) s (fldAt (al.mag w.normal).h q) = s (fldAt (al.mag w.normal).h q) +
      (sign al side : K) * (C (.gamma (al.mag w.normal).h q.1 q.2.1 q.2.2) *
        (C (.ide w.normal (coord w.normal q)) * edgeField s
          (C (.sibW n (lowEdge al) (foot w.normal side q).1 (foot w.normal side q).2.1 (foot w.normal side q).2.2))
          (C (.sibW n (highEdge al) (shift (al.mag w.normal) (-1) (foot w.normal side q)).1
            (shift (al.mag w.normal) (-1) (foot w.normal side q)).2.1 (shift (al.mag w.normal) (-1) (foot w.normal side q)).2.2))
          n w al side (foot w.normal side q))) := by
  have ho := hflat w (List.mem_of_getElem? hn)
  have hmem : (w, n) ∈ l.zipIdx := List.mem_zipIdx_iff_getElem?.2 hn
  have hother : ∀ y ∈ l.zipIdx, y ≠ (w, n) → Apart y.1 (al.mag w.normal).h q ∧ y.1.gbbox y.1.normal.lo = y.1.gbbox y.1.normal.hi := by
    intro y hy hne
    have hg := List.mem_zipIdx_iff_getElem?.1 hy
    refine ⟨hap y.2 y.1 hg ?_, hflat _ (List.mem_of_getElem? hg)⟩
    intro e
    apply hne
    rw [e, hn] at hg
    exact Prod.ext (by simpa using hg.symm) e
  unfold updateSibcH
  rw [run_append]
  have h2 : NoWrite (l.zipIdx.flatMap fun x => loopOver (sibcLim x.1) fun i j k => [⟨fldAt x.1.normal.h (i, j, k), .zero⟩])
      (fldAt (al.mag w.normal).h q) := by
    refine NoWrite.flatMap fun y hy => NoWrite.loop fun i j k hi => ?_
    simp only [Block.writes, List.map_cons, List.map_nil, List.mem_singleton]
    by_cases e : y = (w, n)
    · subst e
      obtain ⟨a, g, np⟩ := w
      cases a <;> cases al <;> simp [fldAt, Along.mag, Axis.next, Axis.h]
    · exact normal_near _ (hother y hy e).2 (hother y hy e).1 hi
  rw [NoWrite.run C h2]
  obtain ⟨s', h3, h4⟩ := run_flatMap_sole C (L := l.zipIdx)
    (f := fun x => loopOver (sibcLim x.1) fun i j k => sibcHBlock x.2 x.1 (i, j, k)) hmem (C24.nodup_zipIdx l)
    (S := fun m => m = fldAt (al.mag w.normal).h q ∨ m.kind = .et) (by
      intro y hy hne m hm
      refine NoWrite.loop fun i j k hi => ?_
      rcases hm with rfl | hm
      · exact block_near y.2 y.1 (hother y hy hne).2 (hother y hy hne).1 hi
      · intro hw
        obtain ⟨⟨a, g, np⟩, n'⟩ := y
        cases a <;> simp [Block.writes, sibcHBlock, sibcAdj, sibcCorr, fldAt] at hw <;>
          rcases hw with h | h | h | h | h | h | h | h | h | h | h | h | h <;> subst h <;> cases hm) s
  rw [h4 _ (Or.inl rfl)]
  have hs : ∀ m : Loc, m.kind = .et → s' m = s m := fun m hm => h3 m (Or.inr hm)
  have hL := h3 (fldAt (al.mag w.normal).h q) (Or.inl rfl)
  have hcoord : coord w.normal q = if isLow side then w.gbbox w.normal.lo - 1 else w.gbbox w.normal.lo := by
    unfold Beside at hb
    obtain ⟨a, g, np⟩ := w
    cases a <;> cases side <;> simp [foot, shift, coord, isLow] at hb ⊢ <;> omega
  unfold loopOver
  simp only []
  rw [run_adds C (fun t : Int × Int × Int => sibcHBlock n w (t.1, t.2.1, t.2.2)) _ (fun m => m.kind = .et)
    (fun t s => if t = lowFace w.normal (isLow side) q then corr C n w (isFirst al) (isLow side) false (lowFace w.normal (isLow side) q) q s
      else if t = shift (dirOf w.normal (isFirst al)) (-1) (lowFace w.normal (isLow side) q) then
        corr C n w (isFirst al) (isLow side) true (shift (dirOf w.normal (isFirst al)) (-1) (lowFace w.normal (isLow side) q)) q s else 0)]
  · rw [sum_two _ _ _ _ (nodup_boxLoop _), hL]
    · simp only [covers_iff w ho, ← foot_low, ← mag_dir]
      have hc : ∀ (p : Int × Int × Int) (hi : Bool), corr C n w (isFirst al) (isLow side) hi p q s' = (sign al side : K) *
          (C (.gamma (al.mag w.normal).h q.1 q.2.1 q.2.2) * (C (.ide w.normal (coord w.normal q)) *
            (C (.sibW n (wIdx (isFirst al) hi) p.1 p.2.1 p.2.2) * squareField s n w al side p))) := by
        intro p hi
        unfold corr squareField
        rw [hs _ rfl, ← mag_dir]
        cases al <;> cases side <;> simp [isFirst, isLow, sign, eIdx, storedAt, sibcRel] <;> ring
      rw [hc, hc]
      unfold edgeField
      have w1 : wIdx (isFirst al) false = lowEdge al := by cases al <;> rfl
      have w2 : wIdx (isFirst al) true = highEdge al := by cases al <;> rfl
      rw [w1, w2]
      have fin : ∀ (P Q P' Q' : Prop) (_ : Decidable P) (_ : Decidable Q) (_ : Decidable P') (_ : Decidable Q') (g a b x y z : K), (P ↔ P') → (Q ↔ Q') →
          x + ((if P then g * (a * (b * y)) else 0) + if Q then g * (a * (b * z)) else 0) =
            x + g * (a * (b * ((if P' then y else 0) + if Q' then z else 0))) := by
        intro P Q P' Q' _ _ _ _ g a b x y z h1 h2
        by_cases hp : P' <;> by_cases hq : Q' <;> simp [h1, h2, hp, hq] <;> ring
      refine fin _ _ _ _ _ _ _ _ _ _ _ _ _ _ ?_ ?_
      · rw [← foot_low]; exact covers_iff w ho _
      · rw [← foot_low, ← mag_dir]; exact covers_iff w ho _
    · intro e
      have := congrArg (coord (dirOf w.normal (isFirst al))) e
      revert this
      generalize dirOf w.normal (isFirst al) = d
      generalize lowFace w.normal (isLow side) q = t
      intro h
      cases d <;> simp [coord, shift] at h
  · intro t ht s0
    rw [mag_dir]
    have hv : coord w.normal t = w.gbbox w.normal.lo := ((covers_iff w ho t).1 ht).2.1
    rw [hblock_adds C n w (isFirst al) (isLow side) q t _ hv hcoord s0]
    congr 1
    by_cases e1 : t = lowFace w.normal (isLow side) q
    · rw [if_pos e1, if_pos e1, e1]
    · rw [if_neg e1, if_neg e1]
      by_cases e2 : t = shift (dirOf w.normal (isFirst al)) (-1) (lowFace w.normal (isLow side) q)
      · rw [if_pos e2, if_pos e2, e2]
      · rw [if_neg e2, if_neg e2]
  · intro t _ s1 s2 h
    have hc : ∀ (p : Int × Int × Int) (hi : Bool), corr C n w (isFirst al) (isLow side) hi p q s1 =
        corr C n w (isFirst al) (isLow side) hi p q s2 := by
      intro p hi
      unfold corr
      rw [h _ rfl]
    simp only [hc]
  · intro t _ m hm hw
    obtain ⟨a, g, np⟩ := w
    cases a <;> simp [Block.writes, sibcHBlock, sibcAdj, sibcCorr, fldAt] at hw <;>
      rcases hw with h | h | h | h | h | h | h | h | h | h | h | h | h <;> subst h <;> cases hm

/-- Mesh edge of the sheet next to the magnetic sample. -/
def edgeOf (w : SibcSurf) (al : Along) (side : Side) (q : Int × Int × Int) : Loc :=
  fldAt (al.el w.normal).e (foot w.normal side q)

/-- Faraday's law with the electric field of that edge increased by `x`. -/
theorem faraday_edge (w : SibcSurf) (al : Along) (side : Side) (q : Int × Int × Int) (e : Loc → K) (x : K) :
    (faraday (al.mag w.normal).h q.1 q.2.1 q.2.2).eval C (Function.update e (edgeOf w al side q) (e (edgeOf w al side q) + x)) =
      (faraday (al.mag w.normal).h q.1 q.2.1 q.2.2).eval C e + (sign al side : K) *
        (C (.gamma (al.mag w.normal).h q.1 q.2.1 q.2.2) * (C (.ide w.normal (coord w.normal q)) * x)) := by
  obtain ⟨a, g, np⟩ := w
  obtain ⟨i, j, k⟩ := q
  cases a <;> cases al <;> cases side <;>
    simp [faraday, faradayX, faradayY, faradayZ, curlEx, curlEy, curlEz, EX, EY, EZ, HX, HY, HZ, Expr.eval, edgeOf, foot, shift,
      Along.mag, Along.el, Axis.next, Axis.h, Axis.e, fldAt, coord, sign, Function.update] <;> ring

/-- **C59**, one step: whatever the fields were, a magnetic sample beside an impedance sheet is advanced by Faraday's
law, with the electric field of the mesh edge in the sheet plus the field of the sheet's squares there on that side. -/
theorem beside_sheet (S : Sim) (hv : ValidSim S) {n : Nat} {w : SibcSurf} (hn : S.sibc[n]? = some w)
    (al : Along) (side : Side) (q : Int × Int × Int) (hb : Beside w side q)
    (hin : SampleIn S.cfg.gibox (al.mag w.normal).h q.1 q.2.1 q.2.2)
    (hap : ∀ n' w', S.sibc[n']? = some w' → n' ≠ n → Apart w' (al.mag w.normal).h q)
    (hno : NoWrite (updateSourcesH S.srcs ++ updatePlaneWavesH S.cfg S.pws) (fldAt (al.mag w.normal).h q)) (s : Loc → K) :
    let e := S.stepE.run C s
    let p := foot w.normal side q
    let p' := shift (al.mag w.normal) (-1) p
    S.step.run C s (fldAt (al.mag w.normal).h q) =
      (faraday (al.mag w.normal).h q.1 q.2.1 q.2.2).eval C (Function.update e (edgeOf w al side q) (e (edgeOf w al side q) +
        edgeField e (C (.sibW n (lowEdge al) p.1 p.2.1 p.2.2)) (C (.sibW n (highEdge al) p'.1 p'.2.1 p'.2.2)) n w al side p)) := by
  intro e p p'
  have hf : ((al.mag w.normal).h).isE = false := axis_h_isE _
  unfold Sim.step
  rw [run_append]
  have : S.stepH = (updatePmlHfield S.cfg ++ updateMurHfield S.cfg ++ updateGridHfield S.cfg) ++
      (updateSibcH S.sibc ++ ((updateSourcesH S.srcs ++ updatePlaneWavesH S.cfg S.pws) ++
        updateGhostHfield S.cfg)) := by simp [Sim.stepH, List.append_assoc]
  rw [this, run_append, run_append, NoWrite.run C (hno.append
    (noWrite_ghostH hv.cfg (sampleIn_mono (gibox_within hv.cfg) hin))),
    sheet_adds C S.sibc (fun w hw => (hv.sibc w hw).2.2) hn al side q hb hap, faraday_edge]
  have h1 := magnetic_value C hv.cfg hf hin e
  have h2 : ∀ m : Loc, m.kind = .et → Prog.run C (updatePmlHfield S.cfg ++ updateMurHfield S.cfg ++ updateGridHfield S.cfg) e m = e m := by
    intro m hm
    have k : m.kind ∉ [LKind.fld, .pml] := by rw [hm]; decide
    exact NoWrite.run C (((((wo_pmlH S.cfg).mono (by decide)).noWrite k).append
      (((wo_murH S.cfg).mono (by decide)).noWrite k)).append (((wo_gridH S.cfg).mono (by decide)).noWrite k)) e
  rw [show fldAt (al.mag w.normal).h q = Loc.fld (al.mag w.normal).h q.1 q.2.1 q.2.2 from rfl, h1]
  unfold edgeField squareField
  rw [h2 _ rfl, h2 _ rfl]

/-- The state the magnetic half works on, in terms of the fields before and after the step. -/
theorem between_step (S : Sim) (s : Loc → K) (l : Loc) (hl : (∃ fc i j k, l = .fld fc i j k) ∨ l.kind = .et) :
    between s (S.step.run C s) l = S.stepE.run C s l := by
  rcases hl with ⟨fc, i, j, k, rfl⟩ | hl
  · by_cases hf : fc.isE = true
    · simp only [between, hf, if_true]
      unfold Sim.step
      rw [run_append, NoWrite.run C (noE_stepH hf i j k S)]
    · have hf' : fc.isE = false := by simpa using hf
      simp only [between, hf', Bool.false_eq_true, if_false]
      exact (NoWrite.run C (noH_stepE hf' i j k S) s).symm
  · have e : between s (S.step.run C s) l = S.step.run C s l := by cases l <;> first | rfl | cases hl
    rw [e]
    unfold Sim.step
    rw [run_append]
    have k : l.kind ∉ [LKind.fld, .pml, .aux] := by rw [hl]; decide
    refine NoWrite.run C ?_ _
    refine NoWrite.append (NoWrite.append (NoWrite.append (NoWrite.append (NoWrite.append (NoWrite.append ?_ ?_) ?_) ?_) ?_) ?_) ?_
    · exact ((wo_pmlH S.cfg).mono (by decide)).noWrite k
    · exact ((wo_murH S.cfg).mono (by decide)).noWrite k
    · exact ((wo_gridH S.cfg).mono (by decide)).noWrite k
    · exact ((wo_sibcH S.sibc).mono (by decide)).noWrite k
    · exact ((wo_srcH S.srcs).mono (by decide)).noWrite k
    · exact ((wo_pwH S.cfg S.pws).mono (by decide)).noWrite k
    · exact ((wo_ghost S.cfg ghostHcomps).mono (by decide)).noWrite k

/-- Faraday's law looks at fields only. -/
theorem faraday_reads (fc : Fc) (i j k : Int) (s s' : Loc → K) (h : ∀ fc i j k, s (.fld fc i j k) = s' (.fld fc i j k)) :
    (faraday fc i j k).eval C s = (faraday fc i j k).eval C s' := by
  cases fc <;> simp [faraday, faradayX, faradayY, faradayZ, curlEx, curlEy, curlEz, EX, EY, EZ, HX, HY, HZ, Expr.eval, h]

open Setup CavityLemmas in
open Classical in
/-- **C59**, whole runs: in every step of the run of any accepted mesh file, a magnetic sample beside an impedance sheet
is advanced by Faraday's law, where the edge in the sheet carries the mean of the fields of the two squares that meet
there on that side (the sum, on a magnetic or periodic wall; a missing square counts nothing). -/
theorem sheet_drives_mesh {k : Consts} {J : Junk} {X : Experiment} {R : Setup.Run} (h : setup k J X = some R)
    (hz : ThirdSidesOrdered X.file.cards) {n : Nat} {w : SibcSurf} (hn : R.sim.sibc[n]? = some w)
    (al : Along) (side : Side) (q : Int × Int × Int) (hb : Beside w side q)
    (hin : SampleIn R.cfg.gibox (al.mag w.normal).h q.1 q.2.1 q.2.2)
    (hap : ∀ n' w', R.sim.sibc[n']? = some w' → n' ≠ n → Apart w' (al.mag w.normal).h q)
    (hno : NoWrite (updateSourcesH R.sim.srcs ++ updatePlaneWavesH R.sim.cfg R.sim.pws) (fldAt (al.mag w.normal).h q)) (N : Nat) :
    let e := between (R.fields N) (R.fields (N + 1))
    let p := foot w.normal side q
    let weight : ℝ := if OnEvenWall R.cfg (al.mag w.normal) (coord (al.mag w.normal) p) then 1 else 1 / 2
    R.fields (N + 1) (fldAt (al.mag w.normal).h q) =
      (faraday (al.mag w.normal).h q.1 q.2.1 q.2.2).eval R.coefs
        (Function.update e (edgeOf w al side q) (e (edgeOf w al side q) + edgeField e weight weight n w al side p)) := by
  intro e p weight
  obtain ⟨hv, -, -, -, hC, -, -, pws, -, eS⟩ := run_parts h
  obtain ⟨st, hst, hc, hS, -⟩ := Scaling.setup_parts h
  have hvs : ValidSim R.sim := C47.accepted_file_valid hS hz
  have ecfg : R.sim.cfg = R.cfg := by rw [eS]
  have hsib : (Deck.sibcItems R.cfg R.state.surfs)[n]? = some w := by rw [eS] at hn; exact hn
  rw [← ecfg] at hin
  have main := beside_sheet R.coefs R.sim hvs hn al side q hb hin hap hno (setInputs (R.drive N) (R.fields N))
  have hw : ∀ m (t : Int × Int × Int), R.coefs (.sibW n m t.1 t.2.1 t.2.2) = edgeWeight R.cfg R.state n m t.1 t.2.1 t.2.2 := by
    intro m t; rw [hC]; rfl
  have even : ∀ (a : Axis) (i : Int), isPmcEdge R.cfg a i = true ↔ OnEvenWall R.cfg a i := by
    intro a i
    unfold isPmcEdge OnEvenWall
    simp only [Bool.or_eq_true, Bool.and_eq_true, beq_iff_eq]
    constructor
    · rintro (⟨h1, h2⟩ | ⟨h1, h2⟩)
      · exact ⟨a.lo, by cases a <;> rfl, h1, h2⟩
      · exact ⟨a.hi, by cases a <;> rfl, h1, h2⟩
    · rintro ⟨f, rfl, h1, h2⟩
      cases f
      all_goals first | exact Or.inl ⟨h1, h2⟩ | exact Or.inr ⟨h1, h2⟩
  have val : ∀ (a : Axis) (i : Int), (0.5 : ℝ) * (1 + bit (isPmcEdge R.cfg a i)) = if OnEvenWall R.cfg a i then 1 else 1 / 2 := by
    intro a i
    by_cases hE : OnEvenWall R.cfg a i
    · rw [if_pos hE, (even a i).2 hE]; norm_num [bit]
    · have : isPmcEdge R.cfg a i = false := by
        rw [← Bool.not_eq_true, even]; exact hE
      rw [if_neg hE, this]; norm_num [bit]
  have w1 : edgeWeight R.cfg R.state n (lowEdge al) p.1 p.2.1 p.2.2 = weight := by
    unfold edgeWeight
    rw [hsib]
    simp only []
    rw [val]
    cases al <;> simp [lowEdge, Along.mag, weight]
  have w2 : edgeWeight R.cfg R.state n (highEdge al) (shift (al.mag w.normal) (-1) p).1 (shift (al.mag w.normal) (-1) p).2.1
      (shift (al.mag w.normal) (-1) p).2.2 = weight := by
    unfold edgeWeight
    rw [hsib]
    simp only []
    rw [val]
    have : ∀ a : Axis, coord a (shift a (-1) p) + 1 = coord a p := by
      intro a; cases a <;> simp [coord, shift]
    cases al <;> simp [highEdge, Along.mag, weight, this]
  simp only [] at main
  rw [hw, hw, w1, w2] at main
  have hstep : R.fields (N + 1) = R.sim.step.run R.coefs (setInputs (R.drive N) (R.fields N)) := rfl
  have hbt : ∀ l : Loc, ((∃ fc i j k, l = .fld fc i j k) ∨ l.kind = .et) →
      e l = R.sim.stepE.run R.coefs (setInputs (R.drive N) (R.fields N)) l := by
    intro l hl
    rw [← between_step R.coefs R.sim _ l hl, ← hstep]
    rcases hl with ⟨fc, i, j, k, rfl⟩ | hl
    · rfl
    · cases l <;> first | rfl | cases hl
  rw [hstep, main]
  refine faraday_reads _ _ _ _ _ _ _ fun fc i j k => ?_
  have hedge : e (edgeOf w al side q) = R.sim.stepE.run R.coefs (setInputs (R.drive N) (R.fields N)) (edgeOf w al side q) :=
    hbt _ (Or.inl ⟨_, _, _, _, rfl⟩)
  have hsq : ∀ p, squareField e n w al side p =
      squareField (R.sim.stepE.run R.coefs (setInputs (R.drive N) (R.fields N))) n w al side p := by
    intro p; unfold squareField; exact hbt _ (Or.inr rfl)
  have hef : edgeField e weight weight n w al side p =
      edgeField (R.sim.stepE.run R.coefs (setInputs (R.drive N) (R.fields N))) weight weight n w al side p := by
    unfold edgeField
    rw [hsq, hsq]
  rw [hedge, hef]
  simp only [Function.update_apply]
  rw [hbt _ (Or.inl ⟨_, _, _, _, rfl⟩)]

/-- A program that only ever assigns zero to a location, and does so. -/
theorem run_zero {L : Loc} : ∀ (p : Prog) (s : Loc → K), (∀ b ∈ p, ∀ a ∈ b, a.tgt = L → a.rhs = .zero) →
    (s L = 0 ∨ ∃ b ∈ p, L ∈ b.writes) → p.run C s L = 0
  | [], s, _, h => by
    rcases h with h | ⟨b, hb, -⟩
    · exact h
    · cases hb
  | b :: p, s, hz, h => by
    rw [run_cons]
    refine run_zero p _ (fun b' hb' => hz b' (by simp [hb'])) ?_
    by_cases hw : L ∈ b.writes
    · left
      unfold Block.exec
      cases hf : b.find? (fun a' => a'.tgt = L) with
      | none =>
        rw [List.find?_eq_none] at hf
        obtain ⟨a, ha, e⟩ := List.mem_map.1 hw
        exact absurd e (by simpa using hf a ha)
      | some a =>
        have := hz b (by simp) a (List.mem_of_find?_eq_some hf) (by simpa using List.find?_some hf)
        simp [this, Expr.eval]
    · rcases h with h | ⟨b', hb', hw'⟩
      · left; rw [exec_not_written C hw]; exact h
      · rcases List.mem_cons.1 hb' with rfl | hb'
        · exact absurd hw' hw
        · exact Or.inr ⟨b', hb', hw'⟩

/-- The edges of a square of a sheet. -/
def EdgeOfSquare (w : SibcSurf) (t : Int × Int × Int) (fc : Fc) (q : Int × Int × Int) : Prop :=
  (fc = w.normal.next.e ∧ (q = t ∨ q = shift w.normal.next.next 1 t)) ∨
  (fc = w.normal.next.next.e ∧ (q = t ∨ q = shift w.normal.next 1 t))

/-- **C59**, edges: after every step the mesh's own electric field on every edge of every sheet is zero, unless a source
or a plane wave sets it. -/
theorem edges_zero (S : Sim) (hv : ValidSim S) {w : SibcSurf} (hw : w ∈ S.sibc) {t q : Int × Int × Int} (ht : Covers w w.normal t)
    {fc : Fc} (he : EdgeOfSquare w t fc q)
    (hno : NoWrite (updateSourcesE S.srcs ++ updatePlaneWavesE S.cfg S.pws) (fldAt fc q)) (s : Loc → K) :
    S.step.run C s (fldAt fc q) = 0 := by
  obtain ⟨hin, hord, hflat⟩ := hv.sibc w hw
  have hf : fc.isE = true := by rcases he with ⟨rfl, -⟩ | ⟨rfl, -⟩ <;> exact axis_e_isE _
  have hsin : SampleIn S.cfg.gibox fc q.1 q.2.1 q.2.2 := by
    have hx := hin .x; have hy := hin .y; have hz := hin .z
    have tx := ht.2.2 .x; have ty := ht.2.2 .y; have tz := ht.2.2 .z
    have tn := ht.2.1
    obtain ⟨a, g, np⟩ := w
    obtain ⟨i, j, k⟩ := t
    cases a <;> simp [Axis.lo, Axis.hi, coord, Within] at hx hy hz tx ty tz tn hflat <;>
      (rcases he with ⟨rfl, rfl | rfl⟩ | ⟨rfl, rfl | rfl⟩ <;> simp [SampleIn, pos2, Axis.next, Axis.e, shift] <;> omega)
  unfold Sim.step
  rw [run_append, show fldAt fc q = Loc.fld fc q.1 q.2.1 q.2.2 from rfl, NoWrite.run C (noE_stepH hf _ _ _ S)]
  have : S.stepE = (updatePmlEfield S.cfg ++ updateMurEfield S.cfg ++ updateGridEfield S.cfg ++ updateDebye S.debye) ++
      (updateSibcE S.sibc ++ ((updateSourcesE S.srcs ++ updatePlaneWavesE S.cfg S.pws) ++ updateGhostEfield S.cfg)) := by
    simp [Sim.stepE, List.append_assoc]
  rw [this, run_append, run_append, show Loc.fld fc q.1 q.2.1 q.2.2 = fldAt fc q from rfl, NoWrite.run C (hno.append
    (noWrite_ghostE hv.cfg (sampleIn_mono (gibox_within hv.cfg) hsin)))]
  refine run_zero C _ _ ?_ (Or.inr ?_)
  · intro b hb a ha e
    obtain ⟨x, -, hb⟩ := List.mem_flatMap.1 hb
    obtain ⟨t', -, rfl⟩ := List.mem_map.1 hb
    simp only [sibcEBlock, List.mem_append, List.mem_cons, List.not_mem_nil, or_false, List.mem_map, List.mem_flatMap] at ha
    rcases ha with ((rfl | rfl | rfl | rfl) | ⟨m, _, rfl⟩) | ⟨p, _, q', _, rfl | ⟨m, _, rfl | rfl⟩⟩
    all_goals first | rfl | (simp [fldAt] at e)
  · obtain ⟨n, hn⟩ := List.mem_iff_getElem?.1 hw
    refine ⟨sibcEBlock n w t, ?_, ?_⟩
    · refine List.mem_flatMap.2 ⟨(w, n), List.mem_zipIdx_iff_getElem?.2 hn, ?_⟩
      exact List.mem_map.2 ⟨t, (covers_iff w hflat t).2 ht, rfl⟩
    · rcases he with ⟨rfl, rfl | rfl⟩ | ⟨rfl, rfl | rfl⟩ <;> simp [Block.writes, sibcEBlock, fldAt]

/-- **C59**, normal field: after every step the magnetic field through every square of every sheet is zero, unless a
source or a plane wave sets it. -/
theorem normal_zero (S : Sim) (hv : ValidSim S) {w : SibcSurf} (hw : w ∈ S.sibc) {t : Int × Int × Int} (ht : Covers w w.normal t)
    (hno : NoWrite (updateSourcesH S.srcs ++ updatePlaneWavesH S.cfg S.pws) (fldAt w.normal.h t)) (s : Loc → K) :
    S.step.run C s (fldAt w.normal.h t) = 0 := by
  obtain ⟨hin, hord, hflat⟩ := hv.sibc w hw
  have hsin : SampleIn S.cfg.gibox w.normal.h t.1 t.2.1 t.2.2 := by
    have hx := hin .x; have hy := hin .y; have hz := hin .z
    have tx := ht.2.2 .x; have ty := ht.2.2 .y; have tz := ht.2.2 .z
    have tn := ht.2.1
    obtain ⟨a, g, np⟩ := w
    obtain ⟨i, j, k⟩ := t
    cases a <;> simp [Axis.lo, Axis.hi, coord, Within] at hx hy hz tx ty tz tn hflat <;> simp [SampleIn, pos2, Axis.h] <;> omega
  unfold Sim.step
  rw [run_append]
  have : S.stepH = (updatePmlHfield S.cfg ++ updateMurHfield S.cfg ++ updateGridHfield S.cfg) ++
      (updateSibcH S.sibc ++ ((updateSourcesH S.srcs ++ updatePlaneWavesH S.cfg S.pws) ++
        updateGhostHfield S.cfg)) := by simp [Sim.stepH, List.append_assoc]
  rw [this, run_append, run_append, NoWrite.run C (hno.append
    (noWrite_ghostH hv.cfg (sampleIn_mono (gibox_within hv.cfg) hsin)))]
  unfold updateSibcH
  rw [run_append]
  refine run_zero C _ _ ?_ (Or.inr ?_)
  · intro b hb a ha e
    obtain ⟨x, -, hb⟩ := List.mem_flatMap.1 hb
    obtain ⟨t', -, rfl⟩ := List.mem_map.1 hb
    simp only [List.mem_singleton] at ha
    subst ha; rfl
  · obtain ⟨n, hn⟩ := List.mem_iff_getElem?.1 hw
    refine ⟨[⟨fldAt w.normal.h t, .zero⟩], ?_, by simp [Block.writes]⟩
    refine List.mem_flatMap.2 ⟨(w, n), List.mem_zipIdx_iff_getElem?.2 hn, ?_⟩
    exact List.mem_map.2 ⟨t, (covers_iff w hflat t).2 ht, rfl⟩

/-! ### A sheet that ends on a metal wall -/

/-- Four cells along each axis, metal walls, a sheet across the middle from wall to wall along `y`. -/
def box : Sim := ⟨⟨fun _ => 4, fun _ => .pec, fun _ => 0⟩, [],
  [⟨.x, fun | .xlo => 3 | .xhi => 3 | .ylo => 1 | .yhi => 5 | .zlo => 1 | .zhi => 5, fun _ _ => 0⟩], [], []⟩

theorem box_gibox : ∀ f, box.cfg.gibox f = if f.isLo then 1 else 5 := by intro f; cases f <;> rfl

theorem box_valid : ValidSim box where
  cfg := C07.setup_valid (fun _ => 4) (fun _ => .pec) (fun _ => 0) _ (fun _ => by decide) rfl
  debye := by intro d hd; cases hd
  sibc := by
    intro w hw
    simp only [box, List.mem_singleton] at hw
    subst hw
    refine ⟨?_, ?_, rfl⟩
    · intro a
      have := box_gibox a.lo; have := box_gibox a.hi
      cases a <;> simp_all [Axis.lo, Axis.hi, Face.isLo]
    · intro a
      cases a <;> simp [Axis.lo, Axis.hi]
  srcs := by intro d hd; cases hd
  pws := by intro d hd; cases hd
  aux := by intro d hd; cases hd

/-- A tangential electric sample in a wall of the box. -/
def inWall (fc : Fc) (i j k : Int) : Bool :=
  (fc != .ex && (i == 1 || i == 5)) || (fc != .ey && (j == 1 || j == 5)) || (fc != .ez && (k == 1 || k == 5))

/-- Free space in the box, metal in its walls, a sheet of unit surface impedance. -/
def boxCoef : CRef → Rat
  | .alpha .. => 1
  | .beta fc i j k => if inWall fc i j k then 0 else 1
  | .gamma .. => 1
  | .ide .. | .idh .. => 1
  | .sibH .. => 1 / 2
  | .sibA _ p q | .sibB _ p q | .rca _ p q => if p = q then 1 else 0
  | .sibW .. => 1 / 2
  | .sibN .. => 1
  | .half => 1 / 2
  | _ => 0

/-- A magnetic field along one edge of the dual mesh, beside the sheet. -/
def boxField : Loc → Rat
  | .fld .hz 3 1 2 => 1
  | _ => 0

/-- Where a sheet ends on a metal wall, the magnetic field through the wall does not stay zero although the electric
field in the wall does: half of the field of the last square acts on the edge in the wall. -/
theorem metal_wall_leaks : boxField (.fld .hy 3 1 2) = 0 ∧
    (∀ e ∈ [(Fc.ez, (3 : Int), (1 : Int), (2 : Int)), (.ez, 4, 1, 2), (.ex, 3, 1, 2), (.ex, 3, 1, 3)],
      inWall e.1 e.2.1 e.2.2.1 e.2.2.2 = true ∧ box.step.run boxCoef boxField (.fld e.1 e.2.1 e.2.2.1 e.2.2.2) = 0) ∧
    box.step.run boxCoef boxField (.fld .hy 3 1 2) = -1 / 4 := by
  decide +kernel

/-! ### The file of C54 with a sheet -/

open Setup Deck in
theorem wall_setup (k : Consts) (J : Junk) : ∃ R, setup k J C54.wall = some R ∧
    R.sim.sibc = [⟨.x, mkBox 4 4 2 6 2 4, fun p q => (C47.samplePr p q).terms.length⟩] ∧ R.sim.srcs = [] ∧ R.sim.pws = [] ∧
    R.cfg.gibox = mkBox 1 7 1 6 1 5 := by
  obtain ⟨s, hs, hu, hp, hsr⟩ := C54.wall_stored
  obtain ⟨c, hc⟩ : ∃ c, initExternalSurfaceParameters C54.wall.file.cells C54.wall.file.bt C54.wall.file.layers = some c :=
    Option.isSome_iff_exists.1 (by
      show (initExternalSurfaceParameters C54.wallFile.cells C54.wallFile.bt C54.wallFile.layers).isSome = true
      decide +kernel)
  have hbox : c.gibox = mkBox 1 7 1 6 1 5 ∧ place c (mkBox 3 3 1 5 1 3) = mkBox 4 4 2 6 2 4 := by
    have h2 : (initExternalSurfaceParameters C54.wallFile.cells C54.wallFile.bt C54.wallFile.layers).map (fun c => Face.all.all fun f =>
      c.gibox f == mkBox 1 7 1 6 1 5 f && place c (mkBox 3 3 1 5 1 3) f == mkBox 4 4 2 6 2 4 f) = some true := by decide +kernel
    have h3 : initExternalSurfaceParameters C54.wallFile.cells C54.wallFile.bt C54.wallFile.layers = some c := hc
    rw [h3, Option.map_some, Option.some.injEq, List.all_eq_true] at h2
    constructor <;> funext f <;> have h4 := h2 f (by cases f <;> decide) <;>
      rw [Bool.and_eq_true, beq_iff_eq, beq_iff_eq] at h4
    exacts [h4.1, h4.2]
  have items : sibcItems c s.surfs = [⟨.x, mkBox 4 4 2 6 2 4, fun p q => (C47.samplePr p q).terms.length⟩] := by
    rw [hu]
    simp only [sibcItems, List.filterMap_cons, List.filterMap_nil, hbox.2]
    rfl
  have hS : (fileOf k J C54.wall c).sim (Setup.de k J C54.wall c) (Setup.dh k J C54.wall c) =
      some ⟨c, debyeItems c s.blocks, sibcItems c s.surfs, [], []⟩ := by
    unfold File.sim
    have a1 : (fileOf k J C54.wall c).stored = some s := hs
    have a2 : initExternalSurfaceParameters (fileOf k J C54.wall c).cells (fileOf k J C54.wall c).bt (fileOf k J C54.wall c).layers = some c := hc
    rw [a1, Option.bind_some, a2, Option.bind_some, hp, hsr]
    rfl
  exact ⟨_, Scaling.setup_of hc hs hS, items, rfl, rfl, hbox.1⟩

/-- `sheet_drives_mesh` applies on both sides of that sheet, at an edge with two squares and at the rim. -/
example (k : Setup.Consts) (J : Setup.Junk) : ∃ R, Setup.setup k J C54.wall = some R ∧ ThirdSidesOrdered C54.wall.file.cards ∧
    ∃ w, R.sim.sibc[0]? = some w ∧
      (∀ q ∈ [((4 : Int), (3 : Int), (2 : Int)), (4, 2, 2)], Beside w .b q ∧ SampleIn R.cfg.gibox (Along.first.mag w.normal).h q.1 q.2.1 q.2.2 ∧
        (∀ n' w', R.sim.sibc[n']? = some w' → n' ≠ 0 → Apart w' (Along.first.mag w.normal).h q) ∧
        NoWrite (updateSourcesH R.sim.srcs ++ updatePlaneWavesH R.sim.cfg R.sim.pws) (fldAt (Along.first.mag w.normal).h q)) ∧
      Covers w w.normal (4, 3, 2) ∧ Covers w w.normal (4, 2, 2) ∧ ¬ Covers w w.normal (4, 1, 2) := by
  obtain ⟨R, hR, hs, h1, h2, hg⟩ := wall_setup k J
  refine ⟨R, hR, ?_, _, by rw [hs]; rfl, ?_, ?_, ?_, ?_⟩
  · intro c hc b hb
    simp only [C54.wall, C54.wallFile, C54.wallCards, List.mem_cons, List.not_mem_nil, or_false] at hc
    rcases hc with rfl | rfl
    · cases hb
    · simp [boxOf] at hb; subst hb; simp [mkBox]
  · intro q hq
    have hno : NoWrite (updateSourcesH R.sim.srcs ++ updatePlaneWavesH R.sim.cfg R.sim.pws) (fldAt (Along.first.mag .x).h q) := by
      rw [h1, h2]; intro b hb; cases hb
    refine ⟨?_, ?_, ?_, hno⟩
    · simp at hq; rcases hq with rfl | rfl <;> rfl
    · rw [hg]; simp at hq; rcases hq with rfl | rfl <;> simp [SampleIn, pos2, mkBox, Along.mag, Axis.next, Axis.h, Axis.lo, Axis.hi]
    · intro n' w' h hne
      rw [hs] at h
      cases n' with
      | zero => exact absurd rfl hne
      | succ m => simp at h
  · refine ⟨rfl, rfl, ?_⟩; intro a ha; cases a <;> simp_all [coord, mkBox, Axis.lo, Axis.hi]
  · refine ⟨rfl, rfl, ?_⟩; intro a ha; cases a <;> simp_all [coord, mkBox, Axis.lo, Axis.hi]
  · rintro ⟨-, -, h⟩
    have := h .y (by decide)
    simp [coord, mkBox, Axis.lo, Axis.hi] at this

end Vulture.C59
