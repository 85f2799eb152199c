import Verif.Spec.Request
import Verif.Props.C68_Longer
/-
C100: asking for other frequencies or another window changes none of the numbers.
-/
set_option linter.unusedSimpArgs false
set_option linter.unusedSectionVars false
set_option linter.unusedVariables false
namespace Vulture.C100
open Vulture.Spec Vulture.Setup Vulture.Deck
open _root_.Vulture.Run hiding body

section
variable {k : Consts} {J : Junk} {X : Experiment} {Q Q' : Request} {fs fs' : List (String × Contents)} {R : Setup.Run}

theorem observed_same (ht : Q'.times = Q.times) (hn : Q'.steps = Q.steps) : observed Q' = observed Q := by
  unfold observed; rw [ht, hn]

/-- A spectrum of equal frequency is the transform of the same numbers. -/
theorem complex_inj {p q : ℝ × ℝ} (h : asComplex p = asComplex q) : p = q := by
  unfold asComplex at h
  exact Prod.ext (congrArg Complex.re h) (congrArg Complex.im h)

/-- **C100.** Two runs of the same input for the same number of steps with the same window but other frequencies: the same
files by name, all the same except for the spectra, and these with the same numbers at the frequencies that are asked for in
both. -/
theorem frequencies_select (h : Leaves k J X Q fs) (h' : Leaves k J X Q' fs') (hn : Q'.steps = Q.steps) (ht : Q'.times = Q.times) :
    fs'.map Prod.fst = fs.map Prod.fst ∧ ∀ n K, (n, K) ∈ fs → ∃ K', (n, K') ∈ fs' ∧ SameAtFrequencies K K' := by
  refine ⟨by rw [C61.file_names h, C61.file_names h'], ?_⟩
  intro n K hK
  obtain ⟨R, hR⟩ := C61.setup_of_leaves h
  have ho := observed_same ht hn
  have hmem : n ∈ C61.expected X.file := by
    rw [← C61.file_names h]; exact List.mem_map_of_mem hK
  have only : ∀ {K2}, (n, K2) ∈ fs → K = K2 := fun h2 => C67.only_one (C61.names_distinct h) hK h2
  unfold C61.expected at hmem
  rcases List.mem_append.1 hmem with hmem | hmem
  · rcases List.mem_append.1 hmem with hmem | hmem
    · obtain ⟨c, hc, rfl⟩ := List.mem_map.1 hmem
      obtain ⟨hc, ha⟩ := List.mem_filter.1 hc
      rw [C61.mem_probes] at hc
      by_cases hf : c.freq = true
      · rw [if_pos hf] at only ⊢
        obtain ⟨m, hd, hm⟩ := C67.transfer_exact h hR hc ha hf
        obtain ⟨m', hd', hm'⟩ := C67.transfer_exact h' hR hc ha hf
        rw [hd] at hd'
        obtain rfl := Option.some.inj hd'
        rw [only hm]
        refine ⟨_, hm', .rows _ _ _ ?_⟩
        intro r hr r' hr' e
        obtain ⟨i, -, rfl⟩ := List.mem_map.1 hr
        obtain ⟨i', -, rfl⟩ := List.mem_map.1 hr'
        simp only at e
        simp only [C67.fieldSpectrum, C67.waveSpectrum, ho, hn, e]
      · rw [if_neg hf] at only ⊢
        have hf : c.freq = false := by simpa using hf
        have p' := C61.probe_file h' hR hc ha hf
        rw [ho] at p'
        rw [only (C61.probe_file h hR hc ha hf)]
        exact ⟨_, p', .same _ rfl⟩
    · obtain ⟨w, hw, hmem⟩ := List.mem_flatMap.1 hmem
      rw [C61.mem_waveNames] at hw
      simp only [List.mem_cons, List.not_mem_nil, or_false] at hmem
      rcases hmem with rfl | rfl
      · have p' := C61.waveform_file h' hR hw
        rw [hn] at p'
        rw [only (C61.waveform_file h hR hw)]
        exact ⟨_, p', .same _ rfl⟩
      · obtain ⟨z, hz, ez⟩ := C61.waveform_spectrum h hR hw
        obtain ⟨z', hz', ez'⟩ := C61.waveform_spectrum h' hR hw
        rw [only hz]
        refine ⟨_, hz', .rows _ _ _ ?_⟩
        intro r hr r' hr' e
        obtain ⟨i, hi, rfl⟩ := List.mem_map.1 hr
        obtain ⟨i', hi', rfl⟩ := List.mem_map.1 hr'
        simp only at e
        have a := ez i (List.mem_range.1 hi)
        have b := ez' i' (List.mem_range.1 hi')
        rw [hn, ← e, ← a] at b
        simp only [e, complex_inj b]
  · split at hmem
    · rename_i hb
      obtain ⟨c, hc, hca⟩ := List.any_eq_true.1 hb
      rw [C61.mem_probes] at hc
      have hca : c.ascii = false := by simpa using hca
      simp only [List.mem_cons, List.not_mem_nil, or_false] at hmem
      rcases hmem with rfl | rfl
      · have p' := C68.impulse_counted h' hR hb
        rw [ho, hn, ht] at p'
        rw [only (C68.impulse_counted h hR hb)]
        exact ⟨_, p', .same _ rfl⟩
      · obtain ⟨m, hm, ha⟩ := C61.excite_file h hR hc hca
        obtain ⟨m', hm', ha'⟩ := C61.excite_file h' hR hc hca
        rw [hm] at hm'
        obtain rfl := Option.some.inj hm'
        rw [hn] at ha'
        rw [only ha]
        exact ⟨_, ha', .same _ rfl⟩
    · simp at hmem

/-- **C100.** With an `OT` card the file of a time-domain observer holds those lines of the run without one whose step lies in
the window. -/
theorem window_selects (h : Leaves k J X Q fs) (h' : Leaves k J X Q' fs') (hn : Q'.steps = Q.steps) (hQ : Q.times = none)
    {t : BitVec 64 × BitVec 64} (hQ' : Q'.times = some t) {c : OPCard} (hc : Deck.Card.op c ∈ X.file.cards)
    (ha : c.ascii = true) (hf : c.freq = false) :
    ∃ at' l, ("eh_" ++ c.name ++ "_td.asc", Contents.time at' l) ∈ fs ∧
      ("eh_" ++ c.name ++ "_td.asc", Contents.time at' (linesIn t l)) ∈ fs' := by
  obtain ⟨R, hR⟩ := C61.setup_of_leaves h
  have p' := C61.probe_file h' hR hc ha hf
  refine ⟨_, _, C61.probe_file h hR hc ha hf, ?_⟩
  have e : ∀ F : ℕ → Line, (∀ q, (F q).step = BitVec.ofNat 64 q) → linesIn t ((observed Q).map F) = (observed Q').map F := by
    intro F hF
    unfold linesIn observed
    rw [hQ, hQ', hn, List.filter_map]
    congr 1
    unfold stepsIn
    refine List.filter_congr fun q hq => ?_
    have hlt : q < 2 ^ 64 := lt_trans (List.mem_range.1 hq) Q.steps.isLt
    simp only [Function.comp_apply, hF, BitVec.toNat_ofNat, Nat.mod_eq_of_lt hlt]
  rw [e _ (fun q => rfl)]
  exact p'

end

/-! ### A case -/

/-- The dipole of C61 run for 100 steps, asked for its own frequencies and for 11 others. -/
example (k : Consts) (J : Junk) (d : ℝ) (fs fs' : List (String × Contents))
    (h : Leaves k J (C61.dipole d) ⟨100, none, none⟩ fs) (h' : Leaves k J (C61.dipole d) ⟨100, none, some (0, 10, 11)⟩ fs') :
    ∃ K K', ("eh_far_fd.asc", K) ∈ fs ∧ ("eh_far_fd.asc", K') ∈ fs' ∧ SameAtFrequencies K K' := by
  obtain ⟨R, hR⟩ := C61.setup_of_leaves h
  obtain ⟨n, -, hm⟩ := C67.transfer_exact h hR (c := ⟨8, mkBox 4 4 2 2 1 1, "far", true, true, 1, 1, 1, "pulse", true⟩)
    (List.mem_cons_of_mem _ (List.mem_cons_of_mem _ List.mem_cons_self)) rfl rfl
  obtain ⟨K', a, b⟩ := (frequencies_select h h' rfl rfl).2 _ _ hm
  exact ⟨_, K', hm, a, b⟩

/-- And recorded from step 10 to step 90. -/
example (k : Consts) (J : Junk) (d : ℝ) (fs fs' : List (String × Contents))
    (h : Leaves k J (C61.dipole d) ⟨100, none, none⟩ fs) (h' : Leaves k J (C61.dipole d) ⟨100, some (10, 90), none⟩ fs') :
    ∃ at' l, ("eh_near_td.asc", Contents.time at' l) ∈ fs ∧ ("eh_near_td.asc", Contents.time at' (linesIn (10, 90) l)) ∈ fs' :=
  window_selects h h' rfl rfl rfl (c := ⟨8, mkBox 3 3 2 2 1 1, "near", true, true, 1, 1, 1, "", false⟩)
    (List.mem_cons_of_mem _ List.mem_cons_self) rfl rfl

end Vulture.C100
