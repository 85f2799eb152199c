import Verif.Props.C67_Observe
/-
C68: a longer run only appends. The same input run for more steps writes the same files, and those of time steps begin with
all the shorter run has written.
-/
set_option linter.unusedSimpArgs false
set_option linter.unusedSectionVars false
set_option linter.unusedVariables false
namespace Vulture.C68
open Vulture.Spec Vulture.Setup Vulture.Deck
open _root_.Vulture.Run hiding body

section
variable {k : Consts} {J : Junk} {X : Experiment} {Q Q' : Request} {fs fs' : List (String × Contents)} {R : Setup.Run}

theorem range_prefix {a b : Nat} (h : a ≤ b) : List.range a <+: List.range b := by
  obtain ⟨c, rfl⟩ := Nat.exists_eq_add_of_le h
  rw [List.range_add]
  exact List.prefix_append _ _

theorem observed_prefix (ht : Q'.times = Q.times) (hn : Q.steps.toNat ≤ Q'.steps.toNat) : observed Q <+: observed Q' := by
  unfold observed
  rw [ht]
  cases Q.times with
  | none => exact range_prefix hn
  | some t => exact (range_prefix hn).filter _

theorem prefix_flatMap {α β : Type} (f : α → List β) {l l' : List α} (h : l <+: l') : l.flatMap f <+: l'.flatMap f := by
  obtain ⟨r, rfl⟩ := h
  rw [List.flatMap_append]
  exact List.prefix_append _ _

/-- The binary file: the number in its header and its records. -/
theorem impulse_counted (h : Leaves k J X Q fs) (hR : setup k J X = some R) (hb : (probes X.file).any (fun c => !c.ascii) = true) :
    ("impulse.dat", Contents.impulse (numOut (window Q.times Q.steps)) ((observed Q).flatMap fun q =>
      ((probes X.file).filter fun c => !c.ascii).flatMap fun c =>
        ((boxNodes (place R.cfg c.bbox) (strideOf c)).getD []).map fun t =>
          ⟨(t.1 - R.cfg.gibox .xlo, t.2.1 - R.cfg.gibox .ylo, t.2.2 - R.cfg.gibox .zlo), fieldsAt (R.fields q) t⟩)) ∈ fs := by
  obtain ⟨-, hN, -, out, ho, rfl⟩ := C61.leaves_parts h hR
  have hr := C32.binary_records _ _ _ _ _ _ (Nat.le_of_lt Q.steps.isLt) ho
  rw [C61.observed_eq hN, C61.binary_items hR] at hr
  unfold filesOf
  rw [if_pos (by rw [C61.any_binary hR]; exact hb), hr]
  refine List.mem_append_right _ (List.mem_cons.2 (Or.inl ?_))
  congr 2
  refine List.flatMap_congr fun q _ => ?_
  rw [List.flatMap_map]
  refine List.flatMap_congr fun c hc => ?_
  have hb : c.ascii = false := by simpa using (List.mem_filter.1 hc).2
  have hst : (obsItem R.cfg (C61.itemOf (waveNames X.file) c)).step = strideOf c := by
    funext a; simp [obsItem, C61.itemOf, hb]
  unfold C32.nodeRecs
  rw [hst]
  rfl

/-- The records of the binary file. -/
theorem impulse_exact (h : Leaves k J X Q fs) (hR : setup k J X = some R) (hb : (probes X.file).any (fun c => !c.ascii) = true) :
    ∃ n, ("impulse.dat", Contents.impulse n ((observed Q).flatMap fun q =>
      ((probes X.file).filter fun c => !c.ascii).flatMap fun c =>
        ((boxNodes (place R.cfg c.bbox) (strideOf c)).getD []).map fun t =>
          ⟨(t.1 - R.cfg.gibox .xlo, t.2.1 - R.cfg.gibox .ylo, t.2.2 - R.cfg.gibox .zlo), fieldsAt (R.fields q) t⟩)) ∈ fs :=
  ⟨_, impulse_counted h hR hb⟩

/-- **C68.** The same input with a larger number of steps leaves the same files, and every file that is not a spectrum
begins with what the shorter run has written. -/
theorem longer_appends (h : Leaves k J X Q fs) (h' : Leaves k J X Q' fs') (ht : Q'.times = Q.times)
    (hn : Q.steps.toNat ≤ Q'.steps.toNat) :
    fs'.map Prod.fst = fs.map Prod.fst ∧
    ∀ n K, (n, K) ∈ fs → isSpectrum K = false → ∃ K', (n, K') ∈ fs' ∧ Continues K K' := by
  refine ⟨by rw [C61.file_names h, C61.file_names h'], ?_⟩
  intro n K hK hs
  obtain ⟨R, hR⟩ := C61.setup_of_leaves h
  have hmem : n ∈ C61.expected X.file := by
    rw [← C61.file_names h]; exact List.mem_map_of_mem hK
  have only : ∀ {K2}, (n, K2) ∈ fs → K = K2 := fun h2 => C67.only_one (C61.names_distinct h) hK h2
  unfold C61.expected at hmem
  rcases List.mem_append.1 hmem with hmem | hmem
  · rcases List.mem_append.1 hmem with hmem | hmem
    · obtain ⟨c, hc, rfl⟩ := List.mem_map.1 hmem
      obtain ⟨hc, ha⟩ := List.mem_filter.1 hc
      rw [C61.mem_probes] at hc
      by_cases hf : c.freq = true
      · rw [if_pos hf] at only
        obtain ⟨m, -, hm⟩ := C67.transfer_exact h hR hc ha hf
        rw [only hm] at hs
        simp [isSpectrum] at hs
      · rw [if_neg hf] at only ⊢
        have hf : c.freq = false := by simpa using hf
        rw [only (C61.probe_file h hR hc ha hf)]
        exact ⟨_, C61.probe_file h' hR hc ha hf, .time _ ((observed_prefix ht hn).map _)⟩
    · obtain ⟨w, hw, hmem⟩ := List.mem_flatMap.1 hmem
      rw [C61.mem_waveNames] at hw
      simp only [List.mem_cons, List.not_mem_nil, or_false] at hmem
      rcases hmem with rfl | rfl
      · rw [only (C61.waveform_file h hR hw)]
        exact ⟨_, C61.waveform_file h' hR hw, .time _ ((range_prefix hn).map _)⟩
      · obtain ⟨z, hz, -⟩ := C61.waveform_spectrum h hR hw
        rw [only hz] at hs
        simp [isSpectrum] at hs
  · split at hmem
    · rename_i hb
      obtain ⟨c, hc, hca⟩ := List.any_eq_true.1 hb
      rw [C61.mem_probes] at hc
      have hca : c.ascii = false := by simpa using hca
      simp only [List.mem_cons, List.not_mem_nil, or_false] at hmem
      rcases hmem with rfl | rfl
      · obtain ⟨a, ha⟩ := impulse_exact h hR hb
        obtain ⟨a', ha'⟩ := impulse_exact h' hR hb
        rw [only ha]
        exact ⟨_, ha', .impulse _ _ (prefix_flatMap _ (observed_prefix ht hn))⟩
      · obtain ⟨m, hm, ha⟩ := C61.excite_file h hR hc hca
        obtain ⟨m', hm', ha'⟩ := C61.excite_file h' hR hc hca
        rw [hm] at hm'
        obtain rfl := Option.some.inj hm'
        rw [only ha]
        exact ⟨_, ha', .excite ((range_prefix hn).map _)⟩
    · simp at hmem

/-- A run with a larger number of steps ends if it is a run with valid cards whose binary observers have positive strides. -/
theorem longer_runs (h : Leaves k J X Q fs) (hN : Q'.steps ≠ 0) (hq : Q'.Accepted)
    (hs : ∀ c ∈ probes X.file, c.ascii = false → ∀ a, 1 ≤ strideOf c a) : ∃ fs', Leaves k J X Q' fs' := by
  obtain ⟨R, hR⟩ := C61.setup_of_leaves h
  obtain ⟨-, -, hwe, -⟩ := C61.leaves_parts h hR
  obtain ⟨hw, hob, -⟩ := C61.stored_obs hR
  refine C61.run_leaves hR hq hN hs ?_
  rintro ⟨c, hc, hcc⟩ e
  have hm : C61.itemOf (waveNames X.file) c ∈ R.state.obs := by rw [hob]; exact List.mem_map_of_mem hc
  have := hwe _ hm
  rw [hw, e] at this
  by_cases ha : c.ascii = true
  · rcases hcc with hcc | hcc
    · simp [ha] at hcc
    · exact absurd (this.1 (by simp [kindOf, C61.itemOf, ha, hcc])) (by simp)
  · exact absurd (this.2 (by simp [kindOf, C61.itemOf, ha])) (by simp)

end

/-! ### A case -/

/-- The dipole of C61 run for 100 and for 250 steps. -/
example (k : Consts) (J : Junk) (d : ℝ) (fs fs' : List (String × Contents))
    (h : Leaves k J (C61.dipole d) ⟨100, none, none⟩ fs) (h' : Leaves k J (C61.dipole d) ⟨250, none, none⟩ fs') :
    ∃ K K', ("eh_near_td.asc", K) ∈ fs ∧ ("eh_near_td.asc", K') ∈ fs' ∧ Continues K K' := by
  obtain ⟨R, hR⟩ := C61.setup_of_leaves h
  have hm := C61.probe_file h hR (c := ⟨8, mkBox 3 3 2 2 1 1, "near", true, true, 1, 1, 1, "", false⟩)
    (List.mem_cons_of_mem _ List.mem_cons_self) rfl rfl
  obtain ⟨K', a, b⟩ := (longer_appends h h' rfl (by decide)).2 _ _ hm rfl
  exact ⟨_, K', hm, a, b⟩

/-- A spectrum does change with the number of steps: without an `OF` card not even its frequencies stay. -/
theorem spectrum_changes : ∃ (Q Q' : Request) (dt : ℝ), Q'.times = Q.times ∧ Q'.freqs = Q.freqs ∧ Q.steps.toNat ≤ Q'.steps.toNat ∧
    0 < dt ∧ frequency Q dt 1 ≠ frequency Q' dt 1 := by
  refine ⟨⟨100, none, none⟩, ⟨200, none, none⟩, 1, rfl, rfl, by decide, one_pos, ?_⟩
  unfold frequency
  simp only [show (100 : BitVec 64).toNat = 100 by decide, show (200 : BitVec 64).toNat = 200 by decide]
  norm_num

end Vulture.C68
