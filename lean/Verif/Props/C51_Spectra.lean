import Verif.Model.PostProc
import Verif.Props.C33_Transform
import Verif.Props.C50_Reader
/-
C51: the post-processing scripts give the spectra the run itself writes.
-/
set_option linter.unusedSimpArgs false
set_option linter.unusedVariables false
namespace Vulture.C51
open Vulture Run Spec C35 C32 C33 PostProc

/-- Element `k` of the `fft` of the values of `N` steps is their transform at frequency `k / (N dt)`. -/
theorem fft_transform (N k : Nat) (v : Nat → ℝ) (dt : ℝ) (hdt : dt ≠ 0) :
    fft ((List.range N).map v) k = transform (List.range N) v (2 * Real.pi * (k / (N * dt))) dt := by
  unfold fft transform
  simp only [List.length_map, List.length_range]
  congr 1
  refine List.map_congr_left fun n hn => ?_
  have hn' := List.mem_range.1 hn
  have hN : (N : ℝ) ≠ 0 := by
    have : 0 < N := by omega
    exact_mod_cast this.ne'
  rw [List.getD_eq_getElem?_getD, List.getElem?_map, List.getElem?_range hn']
  simp only [Option.map_some, Option.getD_some]
  congr 3
  generalize (N : ℝ) = M at hN
  congr 1
  field_simp

section
variable (S : Sim) (C : CRef → ℝ) (u : Nat → Loc → ℝ) (e : Env) (dt : ℝ) (s0 : Loc → ℝ)

/-- The run records every step and transforms at the default frequencies. -/
structure WholeRun (N : Nat) : Prop where
  win : stepsIn e.win.1.toNat e.win.2.toNat N = List.range N
  freqs : e.numFreq = numFreqOf none N
  omega : ∀ f, e.omega f = omegaOf 0 (stepFreqOf none N dt) f

/-- **C51, text files.** `xfreq` on the time files of a node and a waveform gives, at each of the default frequencies, the numbers the
run's own frequency observer of that node writes. -/
theorem xfreq_agrees {N : Nat} (hN : 10 ≤ N) (hmax : N ≤ 2 ^ 64) (hdt : dt ≠ 0) (hw : WholeRun e dt N) {out : Out}
    (h : outputs S C u e dt s0 N = some out) {ot wt of wf : Nat} {xt yt xf yf : Item}
    (hxt : e.items[ot]? = some xt) (kxt : xt.kind = .asciiTime) (hyt : e.items[wt]? = some yt) (kyt : yt.kind = .wfTime)
    (hxf : e.items[of]? = some xf) (kxf : xf.kind = .asciiFreq) (hyf : e.items[wf]? = some yf) (kyf : yf.kind = .wfFreq)
    (same : xf.node = xt.node) (samew : yf.waveform = yt.waveform) :
    ∃ rows, xfreq (out.lines wt) (out.lines ot) = some rows ∧ rows.length = e.numFreq ∧
      ∀ (f : Nat) (hf : f < rows.length), rows[f].freq = e.omega f / (2 * Real.pi) ∧ rows[f].vals.length = 6 ∧
        ∀ comp < 6, cplx (out.dft wf 0 f) ≠ 0 →
          rows[f].vals[comp]? = some (cplx (quotient (out.dft of comp f) (out.dft wf 0 f))) := by
  have lt := time_lines S C u e dt s0 hmax h hxt kxt
  have lw := waveform_lines S C u e dt s0 h hyt kyt
  rw [hw.win] at lt
  have ew : (out.lines wt).map (fun r => r.values.getD 0 0) = (List.range N).map fun q : Nat => e.wave yt.waveform (q * dt) := by
    rw [lw, List.map_map]; rfl
  have et : ∀ c : Nat, (out.lines ot).map (fun r => r.values.getD c 0) =
      (List.range N).map fun q => (fieldsAt (S.state C u s0 q) xt.node).getD c 0 := by
    intro c; rw [lt, List.map_map]; rfl
  have len : (out.lines wt).length = N := by rw [lw]; simp
  have w0 : (out.lines wt)[0]? = some ⟨BitVec.ofNat 64 0, (0 : Nat) * dt, [e.wave yt.waveform ((0 : Nat) * dt)]⟩ := by
    rw [lw, List.getElem?_map, List.getElem?_range (by omega)]; rfl
  have w1 : (out.lines wt)[1]? = some ⟨BitVec.ofNat 64 1, (1 : Nat) * dt, [e.wave yt.waveform ((1 : Nat) * dt)]⟩ := by
    rw [lw, List.getElem?_map, List.getElem?_range (by omega)]; rfl
  have dv : ∀ c : Nat, divide ((out.lines ot).map fun r => r.values.getD c 0) ((out.lines wt).map fun r => r.values.getD 0 0) =
      some fun k => fft ((List.range N).map fun q => (fieldsAt (S.state C u s0 q) xt.node).getD c 0) k /
        fft ((List.range N).map fun q : Nat => e.wave yt.waveform (q * dt)) k := by
    intro c
    unfold divide
    rw [et, ew, if_pos (by simp)]
  refine ⟨(List.range (N / 10)).map fun (k : Nat) => ⟨k / ((1 : Nat) * dt - (0 : Nat) * dt) / N,
    [0, 1, 2, 3, 4, 5].map fun c => fft ((List.range N).map fun q => (fieldsAt (S.state C u s0 q) xt.node).getD c 0) k /
        fft ((List.range N).map fun q : Nat => e.wave yt.waveform (q * dt)) k⟩, ?_, ?_, ?_⟩
  · unfold xfreq
    rw [w0, w1]
    simp only [Option.bind_some, dv, List.mapM_cons, List.mapM_nil, Option.pure_def, Option.bind_eq_bind, Option.map_some, len]
    rfl
  · rw [List.length_map, List.length_range, hw.freqs]
    unfold numFreqOf
    simp only
    omega
  · intro f hf
    rw [List.length_map, List.length_range] at hf
    have om : e.omega f = 2 * Real.pi * (f / (N * dt)) := by
      rw [hw.omega]; unfold omegaOf stepFreqOf; simp only; ring
    have hfn : f < e.numFreq := by rw [hw.freqs]; unfold numFreqOf; simp only; omega
    have hNr : (N : ℝ) ≠ 0 := by
      have : 0 < N := by omega
      exact_mod_cast this.ne'
    simp only [List.getElem_map, List.getElem_range]
    refine ⟨?_, rfl, ?_⟩
    · rw [om]
      have := Real.pi_ne_zero
      generalize (N : ℝ) = M at hNr
      push_cast
      rw [zero_mul, one_mul, sub_zero]
      field_simp
    · intro comp hc hne
      have hfc : ∃ fc, fieldList[comp]? = some fc := by
        have : comp < fieldList.length := hc
        exact ⟨_, List.getElem?_eq_getElem this⟩
      obtain ⟨fc, hfc⟩ := hfc
      have ff := field_transform S C u e dt s0 hmax h hxf kxf hfc hfn
      have wt' := waveform_transform S C u e dt s0 h hyf kyf hfn
      rw [quotient_div _ _ hne, ff, wt', hw.win, samew, om, ← fft_transform N f _ dt hdt, ← fft_transform N f _ dt hdt]
      have ev : (fun q => S.state C u s0 q (.fld fc (xf.gbbox .xlo) (xf.gbbox .ylo) (xf.gbbox .zlo))) =
          fun q => (fieldsAt (S.state C u s0 q) xt.node).getD comp 0 := by
        funext q
        rw [← same, fields_getD _ _ hfc]; rfl
      rw [ev]
      have : comp = 0 ∨ comp = 1 ∨ comp = 2 ∨ comp = 3 ∨ comp = 4 ∨ comp = 5 := by omega
      rcases this with rfl | rfl | rfl | rfl | rfl | rfl <;> rfl

/-- Where the time file covers a part of the run only, `xfreq` stops: the lengths do not agree. (A window of one step is repeated.) -/
theorem xfreq_needs_whole_run {N : Nat} (hmax : N ≤ 2 ^ 64) {out : Out}
    (h : outputs S C u e dt s0 N = some out) {ot wt : Nat} {xt yt : Item}
    (hxt : e.items[ot]? = some xt) (kxt : xt.kind = .asciiTime) (hyt : e.items[wt]? = some yt) (kyt : yt.kind = .wfTime)
    (hwin : stepsIn e.win.1.toNat e.win.2.toNat N ≠ List.range N)
    (h1 : (stepsIn e.win.1.toNat e.win.2.toNat N).length ≠ 1) : xfreq (out.lines wt) (out.lines ot) = none := by
  have lt := time_lines S C u e dt s0 hmax h hxt kxt
  have lw := waveform_lines S C u e dt s0 h hyt kyt
  have ll : (stepsIn e.win.1.toNat e.win.2.toNat N).length ≠ N := by
    intro hl
    apply hwin
    unfold stepsIn at hl ⊢
    have := List.length_filter_eq_length_iff.1 (hl.trans (List.length_range).symm)
    exact List.filter_eq_self.2 this
  have dv : divide ((out.lines ot).map fun r => r.values.getD 0 0) ((out.lines wt).map fun r => r.values.getD 0 0) = none := by
    unfold divide
    rw [if_neg, if_neg]
    · simpa [lt] using h1
    · simpa [lt, lw] using ll
  unfold xfreq
  cases (out.lines wt)[0]? with
  | none => rfl
  | some r0 =>
    cases (out.lines wt)[1]? with
    | none => rfl
    | some r1 =>
      simp only [Option.bind_some, List.mapM_cons, dv, Option.bind_eq_bind, Option.bind_none, Option.map_none]

end

/-! ### The binary files -/

section
variable (S : Sim) (C : CRef → ℝ) (u : Nat → Loc → ℝ) (e : Env) (dt : ℝ) (s0 : Loc → ℝ) (bits : ℝ → BitVec 32)

/-- `tdfdFFT` of values at the times `0, dt, 2 dt, ...`. -/
theorem tdfdFFT_bins (N : Nat) (hN : 2 ≤ N) (a wf : Nat → ℝ) (dt : ℝ) (hdt : dt ≠ 0) :
    tdfdFFT ((List.range N).map a) ((List.range N).map wf) ((List.range N).map fun q : Nat => dt * q) =
      some ((List.range (N / 10)).map fun k : Nat =>
        (transform (List.range N) a (2 * Real.pi * (k / (N * dt))) dt / transform (List.range N) wf (2 * Real.pi * (k / (N * dt))) dt,
          (k : ℝ) / (N * dt))) := by
  unfold tdfdFFT
  rw [List.getElem?_map, List.getElem?_range (by omega), List.getElem?_map, List.getElem?_range (by omega)]
  simp only [Option.map_some, Option.bind_some, List.length_map, List.length_range]
  rw [if_neg (by omega)]
  congr 1
  refine List.map_congr_left fun k _ => ?_
  rw [fft_transform N k a dt hdt, fft_transform N k wf dt hdt]
  congr 1
  push_cast
  rw [mul_zero, sub_zero, mul_one]
  ring

/-- **C51, binary files.** The three scripts, reader, waveform reader and transform, applied to the files of a run recorded in full, give
for each node of each binary observer, each component and each default frequency the transform of the recorded values over that of the
first waveform. -/
theorem scripts_give (real : BitVec 32 → ℝ) (dtb : BitVec 32) (hdtb : real dtb ≠ 0) (hb : C34.BoxFits e) {N : Nat} (hN : 10 ≤ N)
    (h31 : N < 2 ^ 31) {out : Out} (h : outputs S C u e dt s0 N = some out) (hw0 : e.win.1.toNat = 0) (hw1 : e.win.2.toNat = N - 1)
    {op : Nat} (hop : op < (C50.binaries e).length)
    (ho : ∀ a : Axis, (C50.binaries e)[op].gbbox a.lo ≤ (C50.binaries e)[op].gbbox a.hi) :
    ∃ r wf, Reader.readImpulse3D real (impulseDat bits e dtb out) (boxLines e) op [] = some r ∧
      readExcite out.excite r.times = some wf ∧
      ∀ (c : Nat) (hc : c < 6) (i j k : Nat) (hi : i < (r.axisOf .x).length) (hj : j < (r.axisOf .y).length)
        (hk : k < (r.axisOf .z).length),
        ∃ rows, tdfdFFT ((List.range N).map fun m => ((r.field c i j k m).map real).getD 0) wf r.times = some rows ∧
          rows.length = N / 10 ∧ ∀ (f : Nat) (hf : f < rows.length),
            rows[f].2 = f / (N * real dtb) ∧
            rows[f].1 = transform (List.range N) (fun q => real (bits (S.state C u s0 q
                (.fld ([Fc.ex, .ey, .ez, .hx, .hy, .hz][c]'hc) ((r.axisOf .x)[i] + e.giboxLo .x) ((r.axisOf .y)[j] + e.giboxLo .y)
                  ((r.axisOf .z)[k] + e.giboxLo .z))))) (2 * Real.pi * (f / (N * real dtb))) (real dtb) /
              transform (List.range N) (fun q => e.wave 0 (q * dt)) (2 * Real.pi * (f / (N * real dtb))) (real dtb) := by
  have e1 : e.win.2.toNat - e.win.1.toNat + 1 = N := by omega
  obtain ⟨r, h1, h2, -, h4, h5⟩ := C50.reader_returns_partial S C u e s0 bits real dtb hb (by omega) h (by omega) (by omega) (by omega) hop ho []
    (by simp)
  have rq : C50.requested e [] = (List.range N).map fun (m : Nat) => (m + 1 : Int) := by
    unfold C50.requested; rw [if_pos rfl, e1]
  have rl : (C50.requested e []).length = N := by rw [rq]; simp
  have tm : r.times = (List.range N).map fun q : Nat => real dtb * q := by
    rw [h4, rq, List.map_map]
    refine List.map_congr_left fun q _ => ?_
    simp
  have tl : r.times.length = N := by rw [tm]; simp
  have ex : out.excite = (List.range N).map fun q : Nat => e.wave 0 (q * dt) := by
    rw [excite_values S C u e dt s0 h, if_pos]
    obtain ⟨x1, x2⟩ := C50.mem_binaries e (List.getElem_mem hop)
    exact List.any_eq_true.2 ⟨_, x1, by simpa using x2⟩
  refine ⟨r, (List.range N).map fun q : Nat => e.wave 0 (q * dt), h1, ?_, ?_⟩
  · unfold readExcite
    rw [tl, ex, List.take_of_length_le (by simp), if_pos (by simp)]
  · intro c hc i j k hi hj hk
    have ev : ((List.range N).map fun m => ((r.field c i j k m).map real).getD 0) =
        (List.range N).map fun q => real (bits (S.state C u s0 q
                (.fld ([Fc.ex, .ey, .ez, .hx, .hy, .hz][c]'hc) ((r.axisOf .x)[i] + e.giboxLo .x) ((r.axisOf .y)[j] + e.giboxLo .y)
                  ((r.axisOf .z)[k] + e.giboxLo .z)))) := by
      refine List.map_congr_left fun m hm => ?_
      have hm' := List.mem_range.1 hm
      rw [h5 c hc i j k m hi hj hk (by rw [rl]; exact hm')]
      have : e.win.1.toNat + ((C50.requested e [])[m]'(by rw [rl]; exact hm') - 1).toNat = m := by
        rw [hw0]
        simp only [rq, List.getElem_map, List.getElem_range]
        omega
      rw [this]; rfl
    have := tdfdFFT_bins N (by omega) (fun q => real (bits (S.state C u s0 q
                (.fld ([Fc.ex, .ey, .ez, .hx, .hy, .hz][c]'hc) ((r.axisOf .x)[i] + e.giboxLo .x) ((r.axisOf .y)[j] + e.giboxLo .y)
                  ((r.axisOf .z)[k] + e.giboxLo .z))))) (fun q : Nat => e.wave 0 (q * dt)) (real dtb) hdtb
    refine ⟨_, by rw [ev, tm]; exact this, ?_, ?_⟩
    · simp
    · intro f hf
      simp

/-- If the recorded numbers have no rounding error, these are the numbers the frequency observer of that node writes. -/
theorem scripts_agree (real : BitVec 32 → ℝ) (dtb : BitVec 32) (hdt : dt ≠ 0) (hdtb : real dtb = dt) {N : Nat} (hN : 10 ≤ N)
    (hmax : N ≤ 2 ^ 64) (hw : WholeRun e dt N) {out : Out} (h : outputs S C u e dt s0 N = some out) {of wf : Nat} {xf yf : Item}
    (hxf : e.items[of]? = some xf) (kxf : xf.kind = .asciiFreq) (hyf : e.items[wf]? = some yf) (kyf : yf.kind = .wfFreq)
    (hy0 : yf.waveform = 0) {comp : Nat} {fc : Fc} (hc : fieldList[comp]? = some fc)
    (exact : ∀ q < N, real (bits (S.state C u s0 q (.fld fc (xf.gbbox .xlo) (xf.gbbox .ylo) (xf.gbbox .zlo)))) =
      S.state C u s0 q (.fld fc (xf.gbbox .xlo) (xf.gbbox .ylo) (xf.gbbox .zlo)))
    (f : Nat) (hf : f < e.numFreq) (hne : cplx (out.dft wf 0 f) ≠ 0) :
    transform (List.range N) (fun q => real (bits (S.state C u s0 q (.fld fc (xf.gbbox .xlo) (xf.gbbox .ylo) (xf.gbbox .zlo)))))
        (2 * Real.pi * (f / (N * real dtb))) (real dtb) /
      transform (List.range N) (fun q => e.wave 0 (q * dt)) (2 * Real.pi * (f / (N * real dtb))) (real dtb) =
    cplx (quotient (out.dft of comp f) (out.dft wf 0 f)) := by
  have om : e.omega f = 2 * Real.pi * (f / (N * dt)) := by
    rw [hw.omega]; unfold omegaOf stepFreqOf; simp only; ring
  rw [quotient_div _ _ hne, field_transform S C u e dt s0 hmax h hxf kxf hc hf, waveform_transform S C u e dt s0 h hyf kyf hf,
    hw.win, om, hdtb, hy0]
  congr 1
  unfold transform
  congr 1
  refine List.map_congr_left fun q hq => ?_
  simp only [exact q (List.mem_range.1 hq)]

/-- Finding: with a window that starts later than the run the scripts divide values of the window by the waveform from the start of the
run. Even for a field equal to the waveform they do not give one: window of twenty steps from step 1, waveform a single one in step 1. -/
theorem window_shifts_phase : ∃ (wave : Nat → ℝ) (dt : ℝ) (rows : List (ℂ × ℝ)), dt ≠ 0 ∧
    (readExcite ((List.range 30).map wave) ((List.range 20).map fun q : Nat => dt * q)).bind (fun wf =>
      tdfdFFT ((List.range 20).map fun q => wave (1 + q)) wf ((List.range 20).map fun q : Nat => dt * q)) = some rows ∧
    ∃ z f, rows[1]? = some (z, f) ∧ z ≠ 1 := by
  refine ⟨fun q => if q = 1 then 1 else 0, 1, (List.range 2).map fun k : Nat =>
        (transform (List.range 20) (fun q => if 1 + q = 1 then 1 else 0) (2 * Real.pi * (k / ((20 : Nat) * 1))) 1 /
          transform (List.range 20) (fun q => if q = 1 then 1 else 0) (2 * Real.pi * (k / ((20 : Nat) * 1))) 1,
          (k : ℝ) / ((20 : Nat) * 1)), one_ne_zero, ?_, ?_⟩
  · have : readExcite ((List.range 30).map fun q => if q = 1 then (1 : ℝ) else 0) ((List.range 20).map fun q : Nat => (1 : ℝ) * q) =
        some ((List.range 20).map fun q => if q = 1 then (1 : ℝ) else 0) := by
      unfold readExcite
      simp only [List.length_map, List.length_range, ← List.map_take, List.take_range]
      rfl
    rw [this, Option.bind_some, tdfdFFT_bins 20 (by norm_num) _ _ 1 one_ne_zero]
  · refine ⟨_, _, rfl, ?_⟩
    have a1 : transform (List.range 20) (fun q => if 1 + q = 1 then 1 else 0) (2 * Real.pi * ((1 : Nat) / ((20 : Nat) * 1))) 1 = 1 := by
      simp [transform, List.range_succ]
    have a2 : transform (List.range 20) (fun q => if q = 1 then 1 else 0) (2 * Real.pi * ((1 : Nat) / ((20 : Nat) * 1))) 1 =
        Complex.exp (-Complex.I * ((Real.pi / 10 : ℝ) : ℂ)) := by
      simp [transform, List.range_succ]
      congr 2
      ring
    rw [a1, a2, one_div, ← Complex.exp_neg]
    intro hz
    have := congrArg Complex.im hz
    rw [show -(-Complex.I * ((Real.pi / 10 : ℝ) : ℂ)) = ((Real.pi / 10 : ℝ) : ℂ) * Complex.I by ring, Complex.exp_ofReal_mul_I_im,
      Complex.one_im] at this
    have hp := Real.sin_pos_of_pos_of_lt_pi (x := Real.pi / 10) (by positivity) (by linarith [Real.pi_pos])
    linarith

end

/-! ### A concrete run: twenty steps, one node, a constant waveform -/

noncomputable def exRun : Env :=
  { items := [⟨.asciiTime, fun _ => 1, fun _ => 1, 0⟩, ⟨.wfTime, fun _ => 1, fun _ => 1, 0⟩, ⟨.asciiFreq, fun _ => 1, fun _ => 1, 0⟩,
      ⟨.wfFreq, fun _ => 1, fun _ => 1, 0⟩]
    win := (0, 19)
    numFreq := 2
    omega := omegaOf 0 (stepFreqOf none 20 1)
    wave := fun _ _ => 1
    giboxLo := fun _ => 1 }

theorem exRun_whole : WholeRun exRun 1 20 :=
  ⟨by simp only [exRun]; decide +kernel, by simp only [exRun]; decide, fun _ => rfl⟩

example (S : Sim) (C : CRef → ℝ) (u : Nat → Loc → ℝ) (s0 : Loc → ℝ) : ∃ out rows,
    outputs S C u exRun 1 s0 20 = some out ∧ xfreq (out.lines 1) (out.lines 0) = some rows ∧ rows.length = 2 ∧
    ∃ h : 0 < rows.length, rows[0].vals[2]? = some (cplx (quotient (out.dft 2 2 0) (out.dft 3 0 0))) := by
  obtain ⟨out, h⟩ := outputs_finish S C u exRun 1 s0 (by simp [exRun]) 20
  obtain ⟨rows, h1, h2, h3⟩ := xfreq_agrees S C u exRun 1 s0 (by norm_num) (by norm_num) one_ne_zero exRun_whole h
    (ot := 0) (wt := 1) (of := 2) (wf := 3) rfl rfl rfl rfl rfl rfl rfl rfl rfl rfl
  have hl : rows.length = 2 := h2
  refine ⟨out, rows, h, h1, hl, by omega, ?_⟩
  refine (h3 0 (by omega)).2.2 2 (by norm_num) ?_
  rw [waveform_transform S C u exRun 1 s0 h (o := 3) rfl rfl (by show 0 < 2; norm_num)]
  have : exRun.omega 0 = 0 := by simp [exRun, omegaOf]
  rw [this]
  simp [transform, exRun]
  norm_num

end Vulture.C51
