import Verif.Lemmas.Pointwise
/- Which kinds of memory each part of a time step writes. -/
set_option linter.unusedSimpArgs false
namespace Vulture
open Spec C10

/-- The array family a location belongs to. -/
inductive LKind | fld | pml | dj | dl | et | filt | aux | input
  deriving DecidableEq

def Loc.kind : Loc → LKind
  | .fld .. => .fld
  | .pp .. | .p .. | .b .. => .pml
  | .dj .. => .dj
  | .dl .. => .dl
  | .et .. => .et
  | .rz .. | .ro .. => .filt
  | .aux .. => .aux
  | .src .. | .wav .. | .inc .. => .input

/-- All locations written are of the listed kinds. -/
def WritesOnly (ks : List LKind) (p : Prog) : Prop := ∀ b ∈ p, ∀ l ∈ b.writes, l.kind ∈ ks

theorem WritesOnly.noWrite {ks : List LKind} {p : Prog} (h : WritesOnly ks p) {l : Loc} (hl : l.kind ∉ ks) :
    NoWrite p l := fun b hb hw => hl (h b hb l hw)

theorem WritesOnly.append {ks : List LKind} {p q : Prog} (h : WritesOnly ks p) (h' : WritesOnly ks q) :
    WritesOnly ks (p ++ q) := by
  intro b hb
  rcases List.mem_append.1 hb with hb | hb
  · exact h b hb
  · exact h' b hb

theorem WritesOnly.nil {ks : List LKind} : WritesOnly ks [] := by intro b hb; cases hb

theorem WritesOnly.flatMap {α : Type*} {ks : List LKind} {L : List α} {f : α → Prog}
    (h : ∀ x ∈ L, WritesOnly ks (f x)) : WritesOnly ks (L.flatMap f) := by
  intro b hb
  obtain ⟨x, hx, hb⟩ := List.mem_flatMap.1 hb
  exact h x hx b hb

theorem WritesOnly.loop {ks : List LKind} {lim : Face → Int} {body : Int → Int → Int → Block}
    (h : ∀ i j k, ∀ l ∈ (body i j k).writes, l.kind ∈ ks) : WritesOnly ks (loopOver lim body) :=
  (forall_loopOver (Q := fun b => ∀ l ∈ b.writes, l.kind ∈ ks)).2 fun i j k _ => h i j k

theorem WritesOnly.mono {ks ks' : List LKind} {p : Prog} (h : WritesOnly ks p) (hk : ks ⊆ ks') :
    WritesOnly ks' p := fun b hb l hl => hk (h b hb l hl)

theorem wo_gridE (c : Cfg) : WritesOnly [.fld] (updateGridEfield c) := by
  unfold updateGridEfield
  refine WritesOnly.append (WritesOnly.append ?_ ?_) ?_ <;>
    exact WritesOnly.loop fun i j k l hl => by
      simp [Block.writes] at hl; subst hl; simp [Loc.kind]

theorem wo_gridH (c : Cfg) : WritesOnly [.fld] (updateGridHfield c) := by
  unfold updateGridHfield
  refine WritesOnly.append (WritesOnly.append ?_ ?_) ?_ <;>
    exact WritesOnly.loop fun i j k l hl => by
      simp [Block.writes] at hl; subst hl; simp [Loc.kind]

theorem wo_pmlE (c : Cfg) : WritesOnly [.fld, .pml] (updatePmlEfield c) := by
  refine WritesOnly.flatMap fun r _ => ?_
  unfold pmlRegionE
  split
  swap; · exact WritesOnly.nil
  refine WritesOnly.append (WritesOnly.append ?_ ?_) ?_ <;>
    refine WritesOnly.loop fun i j k l hl => ?_
  · simp [pmlExBlock, Block.writes] at hl; rcases hl with rfl | rfl | rfl <;> simp [Loc.kind, PPr, Pr, Br]
  · simp [pmlEyBlock, Block.writes] at hl; rcases hl with rfl | rfl | rfl <;> simp [Loc.kind, PPr, Pr, Br]
  · simp [pmlEzBlock, Block.writes] at hl; rcases hl with rfl | rfl | rfl <;> simp [Loc.kind, PPr, Pr, Br]

theorem wo_pmlH (c : Cfg) : WritesOnly [.fld, .pml] (updatePmlHfield c) := by
  refine WritesOnly.flatMap fun r _ => ?_
  unfold pmlRegionH
  split
  swap; · exact WritesOnly.nil
  refine WritesOnly.append (WritesOnly.append ?_ ?_) ?_ <;>
    refine WritesOnly.loop fun i j k l hl => ?_
  · simp [pmlHxBlock, Block.writes] at hl; rcases hl with rfl | rfl <;> simp [Loc.kind, PPr, Pr, Br]
  · simp [pmlHyBlock, Block.writes] at hl; rcases hl with rfl | rfl <;> simp [Loc.kind, PPr, Pr, Br]
  · simp [pmlHzBlock, Block.writes] at hl; rcases hl with rfl | rfl <;> simp [Loc.kind, PPr, Pr, Br]

theorem wo_murE (c : Cfg) : WritesOnly [.fld] (updateMurEfield c) := by
  refine WritesOnly.flatMap fun f _ => ?_
  split
  · refine WritesOnly.flatMap fun fc _ => WritesOnly.loop fun i j k l hl => ?_
    simp [murE, Block.writes] at hl; subst hl; simp [Loc.kind]
  · exact WritesOnly.nil

theorem wo_murH (c : Cfg) : WritesOnly [.fld] (updateMurHfield c) := by
  refine WritesOnly.flatMap fun f _ => ?_
  split
  · refine WritesOnly.loop fun i j k l hl => ?_
    simp [Block.writes] at hl; subst hl; simp [Loc.kind]
  · exact WritesOnly.nil

theorem wo_debye (l : List DebyeBlk) : WritesOnly [.fld, .dj, .dl] (updateDebye l) := by
  refine WritesOnly.flatMap fun x _ => WritesOnly.flatMap fun fc _ => WritesOnly.loop fun i j k l hl => ?_
  simp only [debyeBlock, Block.writes, List.map_cons, List.mem_cons, List.mem_map, List.mem_flatMap,
    List.not_mem_nil, or_false] at hl
  rcases hl with rfl | rfl | ⟨a, ⟨m, _, rfl | rfl⟩, rfl⟩ <;> simp [Loc.kind]

theorem wo_sibcE (l : List SibcSurf) : WritesOnly [.fld, .et, .filt] (updateSibcE l) := by
  refine WritesOnly.flatMap fun x _ => WritesOnly.loop fun i j k l hl => ?_
  simp only [sibcEBlock, Block.writes, List.map_append, List.mem_append, List.map_cons, List.map_nil,
    List.mem_cons, List.not_mem_nil, or_false, false_or, List.mem_map, List.mem_flatMap, fldAt] at hl
  rcases hl with hl | ⟨a, ⟨p, _, q, _, rfl | ⟨m, _, rfl | rfl⟩⟩, rfl⟩
  · rcases hl with (rfl | rfl | rfl | rfl) | ⟨a, ⟨m, _, rfl⟩, rfl⟩ <;> simp [Loc.kind]
  all_goals simp [Loc.kind]

theorem wo_srcE (l : List Src) : WritesOnly [.fld] (updateSourcesE l) := by
  refine WritesOnly.flatMap fun x _ => ?_
  split
  · refine WritesOnly.loop fun i j k l hl => ?_
    unfold srcEBlock at hl
    split at hl <;> simp [Block.writes] at hl <;> subst hl <;> simp [Loc.kind]
  · exact WritesOnly.nil

theorem wo_srcH (l : List Src) : WritesOnly [.fld] (updateSourcesH l) := by
  refine WritesOnly.flatMap fun x _ => ?_
  split
  · refine WritesOnly.loop fun i j k l hl => ?_
    unfold srcHBlock at hl
    split at hl <;> simp [Block.writes] at hl <;> subst hl <;> simp [Loc.kind]
  · exact WritesOnly.nil

theorem wo_ghost (c : Cfg) (comps : Face → List Fc) :
    WritesOnly [.fld] (Face.all.flatMap fun f => ghostFace c (comps f) f) := by
  refine WritesOnly.flatMap fun f _ => ?_
  intro b hb
  unfold ghostFace at hb
  split at hb
  · cases hb
  · cases hb
  · obtain ⟨q, _, hb⟩ := List.mem_flatMap.1 hb
    obtain ⟨fc', h', rfl⟩ := List.mem_map.1 hb
    intro l hl
    simp only [Block.writes, List.map_cons, List.map_nil, List.mem_singleton, fldAt] at hl
    subst hl; simp [Loc.kind]

theorem wo_pwE (c : Cfg) (l : List PW) : WritesOnly [.fld, .aux] (updatePlaneWavesE c l) := by
  refine WritesOnly.flatMap fun x _ => WritesOnly.append ?_ ?_
  · split
    · intro b hb l hl
      simp only [auxE, List.mem_append, List.mem_map] at hb
      rcases hb with (⟨_, _, rfl⟩ | ⟨_, _, rfl⟩) | hb
      · simp [Block.writes] at hl; (try rcases hl with rfl | rfl | rfl) <;> simp_all [Loc.kind]
      · simp [Block.writes] at hl; (try rcases hl with rfl | rfl | rfl) <;> simp_all [Loc.kind]
      · simp at hb; subst hb; simp [Block.writes] at hl; subst hl; simp [Loc.kind]
    · exact WritesOnly.nil
  · refine WritesOnly.flatMap fun r hr => ?_
    split
    · refine WritesOnly.loop fun i' j' k' l hl => ?_
      simp [pwEBlock, Block.writes] at hl
      subst hl; simp [Loc.kind]
    · exact WritesOnly.nil

theorem wo_pwH (c : Cfg) (l : List PW) : WritesOnly [.fld, .aux] (updatePlaneWavesH c l) := by
  refine WritesOnly.flatMap fun x _ => WritesOnly.append ?_ ?_
  · split
    · intro b hb l hl
      simp only [auxH, List.mem_append, List.mem_map] at hb
      rcases hb with ⟨_, _, rfl⟩ | ⟨_, _, rfl⟩
      · simp [Block.writes] at hl; (try rcases hl with rfl | rfl | rfl) <;> simp_all [Loc.kind]
      · simp [Block.writes] at hl; (try rcases hl with rfl | rfl | rfl) <;> simp_all [Loc.kind]
    · exact WritesOnly.nil
  · refine WritesOnly.flatMap fun r hr => ?_
    split
    · refine WritesOnly.loop fun i' j' k' l hl => ?_
      simp [pwHBlock, Block.writes] at hl
      subst hl; simp [Loc.kind]
    · exact WritesOnly.nil

theorem wo_sibcH (l : List SibcSurf) : WritesOnly [.fld] (updateSibcH l) := by
  have kf : ∀ (a : Fc) t, (fldAt a t).kind = .fld := fun _ _ => rfl
  refine WritesOnly.append ?_ ?_
  · refine WritesOnly.flatMap fun x _ => WritesOnly.loop fun i' j' k' l hl => ?_
    obtain ⟨s, n⟩ := x
    obtain ⟨nrm, g, np⟩ := s
    have : ∃ a t, l = fldAt a t := by
      cases nrm <;>
        simp only [sibcHBlock, Block.writes, sibcCorr, sibcAdj, List.cons_append, List.nil_append, List.map_cons,
          List.map_nil, List.mem_cons, List.not_mem_nil, or_false] at hl <;>
        (casesm* _ ∨ _) <;> exact ⟨_, _, by assumption⟩
    obtain ⟨a, t, rfl⟩ := this
    simp [kf]
  · refine WritesOnly.flatMap fun x _ => WritesOnly.loop fun i' j' k' l hl => ?_
    simp [Block.writes] at hl
    subst hl; simp [kf]

end Vulture
