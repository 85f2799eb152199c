import Verif.Props.C36_Export
import Verif.Props.C61_Output
import Verif.Spec.Msh
/-
C94. The Gmsh export shows the mesh file.
-/
set_option linter.unusedSimpArgs false
namespace Vulture.C94
open Vulture Gmsh Spec

/-! ### Corner lists -/

theorem head_corners (b : BBox) (t : GNode) : (cellCorners b t).head? = some t := by
  unfold cellCorners
  split <;> rfl

/-- The corner lists of a box are those of its cells, in Gmsh's order. -/
theorem corner_lists {b : BBox} {step : Axis → Int} {T : BBType} (hT : bboxType b = some T) {ty : ET}
    {cs : List (List GNode)} (h : corners T b step = some (ty, cs)) : ∀ c ∈ cs, ∃ t, c = cellCorners b t := by
  obtain ⟨ht, hd⟩ := C36.degenerate_cases b
  intro c hc
  refine ⟨c.headD (0, 0, 0), ?_⟩
  unfold corners at h
  rw [hd, hT] at h
  rw [hT] at ht
  by_cases h1 : b .xlo = b .xhi <;> by_cases h2 : b .ylo = b .yhi <;> by_cases h3 : b .zlo = b .zhi <;>
    simp only [h1, h2, h3, if_true, if_false, Option.some.injEq] at ht h <;> subst ht <;>
    simp only [Option.some.injEq, Prod.mk.injEq] at h <;> obtain ⟨-, rfl⟩ := h <;>
    simp only [List.mem_flatMap, List.mem_map, List.mem_singleton] at hc
  all_goals first
    | subst hc
    | obtain ⟨i, -, rfl⟩ := hc
    | obtain ⟨i, -, j, -, rfl⟩ := hc
    | obtain ⟨i, -, j, -, k, -, rfl⟩ := hc
  all_goals
    simp [cellCorners, extended, Axis.lo, Axis.hi, h1, h2, h3, List.filter, next]

/-- Dimension of the elements asked for. -/
def typeDim : BBType → Nat | .point => 0 | .line => 1 | .surface => 2 | .volume => 3

theorem dim_type {T : BBType} {b : BBox} {step : Axis → Int} {ty : ET} {cs : List (List GNode)}
    (h : corners T b step = some (ty, cs)) : ty.dim = typeDim T := by
  unfold corners at h
  split at h <;> (try split at h) <;> (try simp only [Option.some.injEq, Prod.mk.injEq, reduceCtorEq] at h) <;>
    (try (obtain ⟨rfl, rfl⟩ := h; rfl))
  all_goals
    obtain ⟨xs, h1, h⟩ := Option.bind_eq_some_iff.1 h
    obtain ⟨ys, h2, h⟩ := Option.bind_eq_some_iff.1 h
    obtain ⟨zs, h3, h⟩ := Option.map_eq_some_iff.1 h
    simp only [Prod.mk.injEq] at h
    obtain ⟨rfl, rfl⟩ := h
    rfl

theorem code_dim (ty : ET) : ty.code = mshCode ty.dim := by cases ty <;> rfl

theorem extents_extended (b : BBox) : extents (C36.lo b) (C36.hi b) = (extended b).length := by
  unfold extents extended C36.lo C36.hi
  by_cases h1 : b .xlo = b .xhi <;> by_cases h2 : b .ylo = b .yhi <;> by_cases h3 : b .zlo = b .zhi <;>
    simp [h1, h2, h3, Axis.lo, Axis.hi, List.filter]

/-! ### The shape of a request -/

/-- The shape a request shows. -/
def Shows (r : Request) (sh : Shape) : Prop :=
  (sh = .cells r.bbox ∧ bboxType r.bbox = some r.type) ∨ (sh = .nodes r.bbox r.step ∧ r.type = .point ∧ ∀ a, 1 ≤ r.step a)

theorem shows_servable {r : Request} {sh : Shape} (h : Shows r sh) : C36.Servable r := by
  rcases h with ⟨-, h⟩ | ⟨-, h⟩
  · exact .inr h
  · exact .inl h

theorem forall2_imp_mem {α β : Type} {R S : α → β → Prop} {l : List α} {l' : List β} (h : List.Forall₂ R l l')
    (hi : ∀ a ∈ l, ∀ b ∈ l', R a b → S a b) : List.Forall₂ S l l' := by
  induction h with
  | nil => exact .nil
  | cons h _ ih => exact .cons (hi _ (by simp) _ (by simp) h) (ih fun a ha b hb => hi a (by simp [ha]) b (by simp [hb]))

theorem forall2_eq_map {α β : Type} {f : α → β} {l : List α} {l' : List β} (h : List.Forall₂ (fun a b => b = f a) l l') :
    l' = l.map f := by
  induction h with
  | nil => rfl
  | cons h _ ih => rw [h, ih]; rfl

/-- One corner list for each part of the shape. -/
theorem parts_of {r : Request} {sh : Shape} (hsh : Shows r sh)
    {ty : ET} {cs : List (List GNode)} (hc : corners r.type r.bbox r.step = some (ty, cs)) :
    ty.dim = sh.dim ∧ ∃ ts : List GNode, ts.Nodup ∧ (∀ t, t ∈ ts ↔ sh.part t) ∧ cs = ts.map sh.corners := by
  rcases hsh with ⟨rfl, hT⟩ | ⟨rfl, hT, hs⟩
  · obtain ⟨h1, ts, h2, h3, h4⟩ := C36.own_dimension r.bbox r.step r.type hT ty cs hc
    refine ⟨by rw [h1, extents_extended]; rfl, ts, h2, h3, forall2_eq_map ?_⟩
    refine forall2_imp_mem h4 fun t _ c hcc hR => ?_
    obtain ⟨t', rfl⟩ := corner_lists hT hc c hcc
    obtain ⟨-, hh, -⟩ := hR
    rw [head_corners, Option.some.injEq] at hh
    rw [hh]; rfl
  · obtain ⟨cs', h1, h2, h3, h4, -⟩ := C36.points r.bbox r.step hs
    rw [hT, h1] at hc
    simp only [Option.some.injEq, Prod.mk.injEq] at hc
    obtain ⟨rfl, rfl⟩ := hc
    have e : ∃ ts : List GNode, cs' = ts.map fun t => [t] := by
      clear h1 h3 h4
      induction cs' with
      | nil => exact ⟨[], rfl⟩
      | cons c cs' ih =>
        obtain ⟨ts, hts⟩ := ih fun c hc => h2 c (by simp [hc])
        obtain ⟨p, rfl⟩ := h2 c (by simp)
        exact ⟨p :: ts, by rw [hts]; rfl⟩
    obtain ⟨ts, rfl⟩ := e
    refine ⟨rfl, ts, h3.of_map _, fun t => ?_, rfl⟩
    rw [← show [t] ∈ ts.map (fun t => [t]) ↔ t ∈ ts by simp]
    exact h4 t

/-! ### The export of a list of requests -/

/-- The dimension of the elements a request asks for. -/
def dimOf (r : Request) : Nat := typeDim r.type

/-- What one request has left in the lists. -/
def Done (nx ny : Int) (s : State) (x : Request × Nat) (es : List Elem) : Prop :=
  ∃ ty cs g, corners x.1.type x.1.bbox x.1.step = some (ty, cs) ∧ g ∈ s.groups ∧ g.name = x.1.name ∧ g.dim = ty.dim ∧
    es = cs.map fun c => ⟨ty, c.map (encode nx ny), g.number, x.2⟩

theorem export_parts {nx ny nz : Int} (rs : List Request) (hr : ∀ r ∈ rs, C36.Servable r ∧ C36.InMesh nx ny nz r.bbox)
    (hd : ∀ r ∈ rs, ∀ r' ∈ rs, r.name = r'.name → dimOf r = dimOf r') :
    ∀ s : State, C36.Good nx ny nz s → (∀ g ∈ s.groups, ∀ r ∈ rs, g.name = r.name → g.dim = dimOf r) →
    ∃ s', export_ nx ny rs s = some s' ∧ C36.Good nx ny nz s' ∧ (∀ g ∈ s.groups, g ∈ s'.groups) ∧
      ∃ parts, List.Forall₂ (Done nx ny s') (rs.zipIdx s.nextEntity) parts ∧ s'.elems = s.elems ++ parts.flatten := by
  induction rs with
  | nil => intro s hg _; exact ⟨s, rfl, hg, fun g h => h, [], .nil, by simp⟩
  | cons r rs ih =>
    intro s hg hgd
    obtain ⟨hsv, hm⟩ := hr r (by simp)
    obtain ⟨s1, h1⟩ := C36.served (nx := nx) (ny := ny) (s := s) hsv (by
      intro g hf ty cs hc
      obtain ⟨hg1, hg2⟩ := C36.findGroup_some hf
      rw [hgd g hg1 r (by simp) hg2, dim_type hc]; rfl)
    obtain ⟨g1, n1, k1, ty, cs, g, hc, hg', e1, e2, e3⟩ := C36.entity_spec hg hsv hm h1
    have hgd1 : ∀ g ∈ s1.groups, ∀ r' ∈ rs, g.name = r'.name → g.dim = dimOf r' := by
      intro g0 h0 r' hr' hn
      have old : g0 ∈ s.groups ∨ g0.name = r.name ∧ g0.dim = dimOf r := by
        unfold addEntity at h1
        rw [hc, Option.bind_some] at h1
        obtain ⟨⟨gs, n⟩, ha, h2⟩ := Option.map_eq_some_iff.1 h1
        have ff := C36.foldl_fields nx ny ty n s.nextEntity cs { s with groups := gs, nextEntity := s.nextEntity + 1 }
        simp only at h2 ha
        rw [h2] at ff
        rw [ff.1] at h0
        simp only at h0
        unfold addGroupIfNew at ha
        split at ha
        · split at ha
          · simp at ha
          · simp only [Option.some.injEq, Prod.mk.injEq] at ha
            rw [← ha.1] at h0
            exact .inl h0
        · simp only [Option.some.injEq, Prod.mk.injEq] at ha
          rw [← ha.1] at h0
          rcases List.mem_append.1 h0 with h0 | h0
          · exact .inl h0
          · rw [List.mem_singleton.1 h0]
            exact .inr ⟨rfl, dim_type hc⟩
      rcases old with h | ⟨h, hdim⟩
      · exact hgd g0 h r' (by simp [hr']) hn
      · rw [hdim]; exact hd r (by simp) r' (by simp [hr']) (h ▸ hn)
    obtain ⟨s', h2, g2, k2, parts, f2, e4⟩ := ih (fun r' h' => hr r' (by simp [h']))
      (fun r' h' r'' h'' => hd r' (by simp [h']) r'' (by simp [h''])) s1 g1 hgd1
    refine ⟨s', ?_, g2, fun g h => k2 g (k1 g h),
      (cs.map fun c => ⟨ty, c.map (encode nx ny), g.number, s.nextEntity⟩) :: parts, ?_, ?_⟩
    · show (addEntity nx ny s r.type r.name r.bbox r.step).bind (export_ nx ny rs) = _
      rw [h1]; exact h2
    · rw [List.zipIdx_cons, ← n1]
      exact .cons ⟨ty, cs, g, hc, k2 g hg', e1, e2, rfl⟩ f2
    · rw [e4, e3, List.flatten_cons, List.append_assoc]

end Vulture.C94
