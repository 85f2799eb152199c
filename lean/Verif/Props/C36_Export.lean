import Verif.Props.C36_Gmsh
/-
C36. The exported file as a whole.
-/
set_option linter.unusedSimpArgs false
set_option linter.unusedSectionVars false
namespace Vulture.C36
open Vulture Gmsh Spec C32
open Vulture.Run (strided)

/-! ### Nodes of elements stay in the box -/

/-- A node of the box. -/
def InBox (b : BBox) (p : GNode) : Prop := ∀ a, lo b a ≤ co p a ∧ co p a ≤ hi b a

theorem tiles_inBox {b : BBox} {cs : List (List GNode)} (h : Tiles b cs) {c : List GNode} (hc : c ∈ cs) {p : GNode}
    (hp : p ∈ c) : InBox b p := by
  obtain ⟨ts, -, hts, hf⟩ := h
  have : ∀ (ts : List GNode) (cs : List (List GNode)), List.Forall₂ (fun t c => c.Nodup ∧ c.head? = some t ∧ ∀ p, p ∈ c ↔ CellNode (lo b) (hi b) t p) ts cs →
      c ∈ cs → ∃ t ∈ ts, ∀ p, p ∈ c ↔ CellNode (lo b) (hi b) t p := by
    intro ts cs hf
    induction hf with
    | nil => intro h; cases h
    | @cons t c' ts cs h1 _ ih =>
      intro h
      rcases List.mem_cons.1 h with rfl | h
      · exact ⟨t, by simp, h1.2.2⟩
      · obtain ⟨t, h2, h3⟩ := ih h
        exact ⟨t, by simp [h2], h3⟩
  obtain ⟨t, ht, hcell⟩ := this ts cs hf hc
  have hl := (hts t).1 ht
  have hcp := (hcell p).1 hp
  intro a
  have h1 := hl a
  have h2 := hcp a
  split_ifs at h1 h2 with h
  · omega
  · omega

/-- The points of a box are every step-th node, each once. -/
theorem points (b : BBox) (step : Axis → Int) (hs : ∀ a, 1 ≤ step a) : ∃ cs, corners .point b step = some (.node1, cs) ∧
    (∀ c ∈ cs, ∃ p, c = [p]) ∧ cs.Nodup ∧
    (∀ p, [p] ∈ cs ↔ ∀ a, Selected (lo b a) (hi b a) (step a) (co p a)) ∧
    ∀ p, [p] ∈ cs → InBox b p := by
  obtain ⟨ht, -⟩ := degenerate_cases b
  by_cases hpt : bboxType b = some .point
  · have hxyz : b .xlo = b .xhi ∧ b .ylo = b .yhi ∧ b .zlo = b .zhi := by
      rw [hpt] at ht
      split_ifs at ht <;> simp_all
    obtain ⟨h1, h2, h3⟩ := hxyz
    refine ⟨[[(b .xlo, b .ylo, b .zlo)]], ?_, ?_, by simp, ?_, ?_⟩
    · unfold corners; simp only [hpt]
    · intro c hc; exact ⟨_, by simpa using hc⟩
    · intro p
      rw [co_axes]
      simp only [lo, hi, Axis.lo, Axis.hi, co, Selected, ← h1, ← h2, ← h3, List.mem_singleton, List.cons.injEq, and_true,
        Prod.ext_iff]
      constructor
      · rintro ⟨e1, e2, e3⟩; rw [e1, e2, e3]; simp
      · rintro ⟨⟨a1, a2, -⟩, ⟨b1, b2, -⟩, c1, c2, -⟩; exact ⟨by omega, by omega, by omega⟩
    · intro p hp a
      simp only [List.mem_singleton, List.cons.injEq, and_true] at hp
      subst hp
      cases a <;> simp [lo, hi, co, Axis.lo, Axis.hi, h1, h2, h3]
  · refine ⟨(strided (b .xlo) (b .xhi) (step .x)).flatMap fun i => (strided (b .ylo) (b .yhi) (step .y)).flatMap fun j =>
      (strided (b .zlo) (b .zhi) (step .z)).map fun k => [(i, j, k)], ?_, ?_, ?_, ?_, ?_⟩
    · have : ∃ T, bboxType b = some T ∧ T ≠ .point := by
        obtain ⟨T, h, -⟩ := own_dimension_total b step
        exact ⟨T, h, fun h' => hpt (h' ▸ h)⟩
      obtain ⟨T, hT, hne⟩ := this
      unfold corners
      cases T with
      | point => exact absurd rfl hne
      | _ =>
        simp only [hT, Run.forStep, hs .x, hs .y, hs .z, ge_iff_le, if_true, Option.bind_some, Option.map_some]
    · intro c hc
      simp only [List.mem_flatMap, List.mem_map] at hc
      obtain ⟨i, -, j, -, k, -, rfl⟩ := hc
      exact ⟨_, rfl⟩
    · have nd : ∀ a lo hi, (strided lo hi (step a)).Nodup := fun a lo hi =>
        (strided_sorted (hs a)).imp fun h => ne_of_lt h
      refine List.nodup_flatMap.2 ⟨fun i _ => List.nodup_flatMap.2 ⟨fun j _ => ?_, ?_⟩, ?_⟩
      · exact (nd .z _ _).map fun a b h => by simpa using h
      · refine (nd .y _ _).imp fun {a b} hab => ?_
        rw [Function.onFun, List.disjoint_left]
        intro t h1 h2
        obtain ⟨i1, -, rfl⟩ := List.mem_map.1 h1
        obtain ⟨i2, -, h⟩ := List.mem_map.1 h2
        simp at h
        exact hab h.1.symm
      · refine (nd .x _ _).imp fun {a b} hab => ?_
        rw [Function.onFun, List.disjoint_left]
        intro t h1 h2
        simp only [List.mem_flatMap, List.mem_map] at h1 h2
        obtain ⟨j1, -, i1, -, rfl⟩ := h1
        obtain ⟨j2, -, i2, -, h⟩ := h2
        simp at h
        exact hab h.1.symm
    · intro p
      rw [co_axes]
      simp only [List.mem_flatMap, List.mem_map, strided_mem (hs _), List.cons.injEq, and_true, lo, hi, co, Axis.lo, Axis.hi]
      constructor
      · rintro ⟨i, hi, j, hj, k, hk, rfl⟩; exact ⟨hi, hj, hk⟩
      · rintro ⟨h1, h2, h3⟩; exact ⟨_, h1, _, h2, _, h3, rfl⟩
    · intro p hp
      simp only [List.mem_flatMap, List.mem_map, strided_mem (hs _), List.cons.injEq, and_true] at hp
      obtain ⟨i, hi, j, hj, k, hk, rfl⟩ := hp
      unfold Selected at hi hj hk
      intro a
      cases a <;> simp only [lo, C36.hi, co, Axis.lo, Axis.hi] <;> omega

/-- A request that can be served: points with positive steps, or the box's own dimension. -/
def Servable (r : Request) : Prop :=
  (r.type = .point ∧ ∀ a, 1 ≤ r.step a) ∨ bboxType r.bbox = some r.type

theorem servable_corners {r : Request} (h : Servable r) : ∃ ty cs, corners r.type r.bbox r.step = some (ty, cs) ∧
    (∀ c ∈ cs, c.length = ty.numNodes ∧ c.Nodup ∧ ∀ p ∈ c, InBox r.bbox p) := by
  rcases h with ⟨h1, h2⟩ | h
  · obtain ⟨cs, hc, h3, -, -, h4⟩ := points r.bbox r.step h2
    refine ⟨.node1, cs, by rw [h1]; exact hc, ?_⟩
    intro c hcc
    obtain ⟨p, rfl⟩ := h3 c hcc
    refine ⟨rfl, by simp, ?_⟩
    intro q hq
    rw [List.mem_singleton.1 hq]
    exact h4 p hcc
  · obtain ⟨T, hT, hs⟩ := own_dimension_total r.bbox r.step
    rw [h] at hT
    obtain rfl := Option.some.inj hT
    obtain ⟨⟨ty, cs⟩, hc⟩ := Option.isSome_iff_exists.1 hs
    obtain ⟨hd, hti⟩ := own_dimension r.bbox r.step _ h ty cs hc
    refine ⟨ty, cs, hc, ?_⟩
    intro c hcc
    refine ⟨?_, ?_, fun p hp => tiles_inBox hti hcc hp⟩
    · -- the number of corners, by inspection of the element lists
      have : ∀ T, corners T r.bbox r.step = some (ty, cs) → c.length = ty.numNodes := by
        intro T hT
        unfold corners at hT
        split at hT <;> (try split at hT) <;> (try simp only [Option.some.injEq, Prod.mk.injEq, reduceCtorEq] at hT) <;>
          (try (obtain ⟨rfl, rfl⟩ := hT)) <;> (try simp only [List.mem_flatMap, List.mem_map, List.mem_singleton] at hcc)
        all_goals first
          | (subst hcc; rfl)
          | (obtain ⟨_, _, rfl⟩ := hcc; rfl)
          | (obtain ⟨_, _, _, _, rfl⟩ := hcc; rfl)
          | (obtain ⟨_, _, _, _, _, _, rfl⟩ := hcc; rfl)
          | skip
        all_goals
          obtain ⟨xs, h1, hT⟩ := Option.bind_eq_some_iff.1 hT
          obtain ⟨ys, h2, hT⟩ := Option.bind_eq_some_iff.1 hT
          obtain ⟨zs, h3, hT⟩ := Option.map_eq_some_iff.1 hT
          simp only [Prod.mk.injEq] at hT
          obtain ⟨rfl, rfl⟩ := hT
          simp only [List.mem_flatMap, List.mem_map] at hcc
          obtain ⟨_, _, _, _, _, _, rfl⟩ := hcc
          rfl
      exact this _ hc
    · obtain ⟨ts, -, -, hf⟩ := hti
      clear hc hd
      induction hf with
      | nil => cases hcc
      | cons h1 _ ih =>
        rcases List.mem_cons.1 hcc with rfl | h'
        · exact h1.1
        · exact ih h'

/-- Gmsh's node order: an edge's two ends, a face in circular order, a brick as two faces in circular order, one above
the other. -/
def Ordered : ET → List GNode → Prop
  | .node1, [_] => True
  | .bar2, [p, q] => Adjacent p q
  | .quad4, [p, q, r, s] => Adjacent p q ∧ Adjacent q r ∧ Adjacent r s ∧ Adjacent s p
  | .hex8, [p, q, r, s, p', q', r', s'] => (Adjacent p q ∧ Adjacent q r ∧ Adjacent r s ∧ Adjacent s p) ∧
      (Adjacent p' q' ∧ Adjacent q' r' ∧ Adjacent r' s' ∧ Adjacent s' p') ∧
      (Adjacent p p' ∧ Adjacent q q' ∧ Adjacent r r' ∧ Adjacent s s')
  | _, _ => False

theorem node_order {T : BBType} {b : BBox} {step : Axis → Int} {ty : ET} {cs : List (List GNode)}
    (hT : corners T b step = some (ty, cs)) {c : List GNode} (hcc : c ∈ cs) : Ordered ty c := by
  unfold corners at hT
  split at hT <;> (try split at hT) <;> (try simp only [Option.some.injEq, Prod.mk.injEq, reduceCtorEq] at hT) <;>
    (try (obtain ⟨rfl, rfl⟩ := hT)) <;> (try simp only [List.mem_flatMap, List.mem_map, List.mem_singleton] at hcc)
  all_goals first
    | (subst hcc; trivial)
    | (obtain ⟨_, _, rfl⟩ := hcc; simp only [Ordered, Adjacent]; omega)
    | (obtain ⟨_, _, _, _, rfl⟩ := hcc; simp only [Ordered, Adjacent]; omega)
    | (obtain ⟨_, _, _, _, _, _, rfl⟩ := hcc; simp only [Ordered, Adjacent]; omega)
    | skip
  all_goals
    obtain ⟨xs, h1, hT⟩ := Option.bind_eq_some_iff.1 hT
    obtain ⟨ys, h2, hT⟩ := Option.bind_eq_some_iff.1 hT
    obtain ⟨zs, h3, hT⟩ := Option.map_eq_some_iff.1 hT
    simp only [Prod.mk.injEq] at hT
    obtain ⟨rfl, rfl⟩ := hT
    simp only [List.mem_flatMap, List.mem_map] at hcc
    obtain ⟨_, _, _, _, _, _, rfl⟩ := hcc
    trivial

/-! ### The invariant -/

/-- Everything the file promises. -/
structure Good (nx ny nz : Int) (s : State) : Prop where
  numbers : ∀ t n, s.map t = some n → n = encode nx ny t ∧ MeshNode nx ny nz t
  used : ∀ el ∈ s.elems, ∀ n ∈ el.nodes, ∃ t, s.map t = some n
  shape : ∀ el ∈ s.elems, el.nodes.length = el.type.numNodes ∧ el.nodes.Nodup
  group : ∀ el ∈ s.elems, ∃ g ∈ s.groups, g.number = el.group ∧ g.dim = el.type.dim
  entity : ∀ el ∈ s.elems, 1 ≤ el.entity ∧ el.entity < s.nextEntity
  names : (s.groups.map Group.name).Nodup
  count : s.groups.map Group.number = (List.range s.groups.length).map (· + 1)
  next : 1 ≤ s.nextEntity
  marked : ∀ t n, s.map t = some n → ∃ el ∈ s.elems, n ∈ el.nodes

theorem good_init (nx ny nz : Int) : Good nx ny nz State.init :=
  { numbers := by intro t n h; cases h
    used := by intro el h; cases h
    shape := by intro el h; cases h
    group := by intro el h; cases h
    entity := by intro el h; cases h
    names := List.nodup_nil
    count := rfl
    next := le_rfl
    marked := by intro t n h; cases h }

theorem findGroup_some {l : List Group} {name : String} {g : Group} (h : findGroup l name = some g) :
    g ∈ l ∧ g.name = name := by
  unfold findGroup at h
  exact ⟨List.mem_of_find?_eq_some h, by simpa using List.find?_some h⟩

theorem findGroup_none {l : List Group} {name : String} (h : findGroup l name = none) : ∀ g ∈ l, g.name ≠ name := by
  unfold findGroup at h
  intro g hg
  simpa using List.find?_eq_none.1 h g hg

/-- Groups after `addGroupIfNew`: the old ones stay, and the number belongs to a group of that name and dimension. -/
theorem addGroup_spec {l l' : List Group} {name : String} {dim n : Nat} (h : addGroupIfNew l name dim = some (l', n))
    (hn : (l.map Group.name).Nodup) (hc : l.map Group.number = (List.range l.length).map (· + 1)) :
    (∀ g ∈ l, g ∈ l') ∧ (∃ g ∈ l', g.name = name ∧ g.number = n ∧ g.dim = dim) ∧ (l'.map Group.name).Nodup ∧
    l'.map Group.number = (List.range l'.length).map (· + 1) := by
  unfold addGroupIfNew at h
  cases hf : findGroup l name with
  | some g =>
    rw [hf] at h
    simp only at h
    split_ifs at h with hd
    simp only [Option.some.injEq, Prod.mk.injEq] at h
    obtain ⟨rfl, rfl⟩ := h
    obtain ⟨h1, h2⟩ := findGroup_some hf
    exact ⟨fun g h => h, ⟨g, h1, h2, rfl, by tauto⟩, hn, hc⟩
  | none =>
    rw [hf] at h
    simp only [Option.some.injEq, Prod.mk.injEq] at h
    obtain ⟨rfl, rfl⟩ := h
    refine ⟨fun g h => by simp [h], ⟨_, by simp; right; rfl, rfl, rfl, rfl⟩, ?_, ?_⟩
    · rw [List.map_append, List.nodup_append]
      refine ⟨hn, by simp, ?_⟩
      intro a ha b hb
      obtain ⟨g, hg, rfl⟩ := List.mem_map.1 ha
      simp at hb
      rw [hb]
      exact findGroup_none hf g hg
    · rw [List.map_append, hc, List.length_append, List.length_singleton, List.range_succ, List.map_append]
      simp

theorem addElem_good {nx ny nz : Int} {s : State} (h : Good nx ny nz s) {ty : ET} {grp ent : Nat} {c : List GNode}
    (hm : ∀ p ∈ c, MeshNode nx ny nz p) (hl : c.length = ty.numNodes) (hnd : c.Nodup)
    (hg : ∃ g ∈ s.groups, g.number = grp ∧ g.dim = ty.dim) (he : 1 ≤ ent ∧ ent < s.nextEntity) :
    Good nx ny nz (addElem nx ny ty grp ent s c) := by
  refine
    { numbers := ?_
      used := ?_
      shape := ?_
      group := ?_
      entity := ?_
      names := h.names
      count := h.count
      next := h.next
      marked := ?_ }
  · intro t n ht
    simp only [addElem] at ht
    split_ifs at ht with hc
    · exact ⟨(Option.some.inj ht).symm, hm t hc⟩
    · exact h.numbers t n ht
  · intro el hel n hn
    simp only [addElem, List.mem_append, List.mem_singleton] at hel
    rcases hel with hel | rfl
    · obtain ⟨t, ht⟩ := h.used el hel n hn
      by_cases hc : t ∈ c
      · refine ⟨t, ?_⟩
        simp only [addElem, hc, if_true, (h.numbers t n ht).1]
      · exact ⟨t, by simp only [addElem, hc, if_false]; exact ht⟩
    · obtain ⟨t, ht, rfl⟩ := List.mem_map.1 hn
      exact ⟨t, by simp only [addElem, ht, if_true]⟩
  · intro el hel
    simp only [addElem, List.mem_append, List.mem_singleton] at hel
    rcases hel with hel | rfl
    · exact h.shape el hel
    · refine ⟨by rw [List.length_map]; exact hl, ?_⟩
      exact hnd.map_on fun x hx y hy hxy => number_injective (hm x hx) (hm y hy) hxy
  · intro el hel
    simp only [addElem, List.mem_append, List.mem_singleton] at hel
    rcases hel with hel | rfl
    · exact h.group el hel
    · exact hg
  · intro el hel
    simp only [addElem, List.mem_append, List.mem_singleton] at hel
    rcases hel with hel | rfl
    · exact h.entity el hel
    · exact he
  · intro t n ht
    simp only [addElem] at ht ⊢
    split_ifs at ht with hc
    · refine ⟨_, by simp; right; rfl, ?_⟩
      rw [← Option.some.inj ht]
      exact List.mem_map_of_mem hc
    · obtain ⟨el, h1, h2⟩ := h.marked t n ht
      exact ⟨el, by simp [h1], h2⟩

theorem foldl_fields (nx ny : Int) (ty : ET) (grp ent : Nat) (cs : List (List GNode)) : ∀ s : State,
    (cs.foldl (addElem nx ny ty grp ent) s).groups = s.groups ∧
    (cs.foldl (addElem nx ny ty grp ent) s).nextEntity = s.nextEntity ∧
    (cs.foldl (addElem nx ny ty grp ent) s).elems =
      s.elems ++ cs.map fun c => ⟨ty, c.map (encode nx ny), grp, ent⟩ := by
  induction cs with
  | nil => intro s; simp
  | cons c cs ih =>
    intro s
    obtain ⟨h1, h2, h3⟩ := ih (addElem nx ny ty grp ent s c)
    rw [List.foldl_cons]
    refine ⟨h1, h2, ?_⟩
    rw [h3]
    simp [addElem]

theorem foldl_good {nx ny nz : Int} {ty : ET} {grp ent : Nat} (cs : List (List GNode)) : ∀ {s : State}, Good nx ny nz s →
    (∀ c ∈ cs, c.length = ty.numNodes ∧ c.Nodup ∧ ∀ p ∈ c, MeshNode nx ny nz p) →
    (∃ g ∈ s.groups, g.number = grp ∧ g.dim = ty.dim) → 1 ≤ ent ∧ ent < s.nextEntity →
    Good nx ny nz (cs.foldl (addElem nx ny ty grp ent) s) := by
  induction cs with
  | nil => intro s h _ _ _; exact h
  | cons c cs ih =>
    intro s h hc hg he
    obtain ⟨h1, h2, h3⟩ := hc c (by simp)
    rw [List.foldl_cons]
    exact ih (addElem_good h h3 h1 h2 hg he) (fun c' hc' => hc c' (by simp [hc'])) hg he

/-- The box lies in the mesh. -/
def InMesh (nx ny nz : Int) (b : BBox) : Prop :=
  (0 ≤ b .xlo ∧ b .xhi < nx) ∧ (0 ≤ b .ylo ∧ b .yhi < ny) ∧ (0 ≤ b .zlo ∧ b .zhi < nz)

theorem inMesh_node {nx ny nz : Int} {b : BBox} (h : InMesh nx ny nz b) {p : GNode} (hp : InBox b p) :
    MeshNode nx ny nz p := by
  have hx := hp .x; have hy := hp .y; have hz := hp .z
  simp only [lo, hi, co, Axis.lo, Axis.hi] at hx hy hz
  unfold InMesh at h
  unfold MeshNode
  omega

/-- What one request adds: a fresh entity number, a group of that name, one element per corner list. -/
theorem entity_spec {nx ny nz : Int} {s s' : State} {r : Request} (hs : Good nx ny nz s) (hr : Servable r)
    (hm : InMesh nx ny nz r.bbox) (h : addEntity nx ny s r.type r.name r.bbox r.step = some s') :
    Good nx ny nz s' ∧ s'.nextEntity = s.nextEntity + 1 ∧ (∀ g ∈ s.groups, g ∈ s'.groups) ∧
    ∃ ty cs g, corners r.type r.bbox r.step = some (ty, cs) ∧ g ∈ s'.groups ∧ g.name = r.name ∧ g.dim = ty.dim ∧
      s'.elems = s.elems ++ cs.map fun c => ⟨ty, c.map (encode nx ny), g.number, s.nextEntity⟩ := by
  obtain ⟨ty, cs, hc, hall⟩ := servable_corners hr
  unfold addEntity at h
  rw [hc, Option.bind_some] at h
  obtain ⟨⟨gs, n⟩, hg, h2⟩ := Option.map_eq_some_iff.1 h
  simp only at hg h2
  obtain ⟨g1, ⟨g, g2, g3, g4, g5⟩, g6, g7⟩ := addGroup_spec hg hs.names hs.count
  have base : Good nx ny nz { s with groups := gs, nextEntity := s.nextEntity + 1 } :=
    { numbers := hs.numbers
      used := hs.used
      shape := hs.shape
      group := fun el hel => by
        obtain ⟨g', h1, h2⟩ := hs.group el hel
        exact ⟨g', g1 g' h1, h2⟩
      entity := fun el hel => by
        have := hs.entity el hel
        exact ⟨this.1, by simp only; omega⟩
      names := g6
      count := g7
      next := by simp only; omega
      marked := hs.marked }
  have ff := foldl_fields nx ny ty n s.nextEntity cs { s with groups := gs, nextEntity := s.nextEntity + 1 }
  rw [h2] at ff
  obtain ⟨f1, f2, f3⟩ := ff
  refine ⟨?_, f2, ?_, ty, cs, g, hc, ?_, g3, g5, ?_⟩
  · rw [← h2]
    refine foldl_good cs base (fun c hcc => ?_) ⟨g, g2, g4, g5⟩ ⟨hs.next, by simp only; omega⟩
    obtain ⟨a1, a2, a3⟩ := hall c hcc
    exact ⟨a1, a2, fun p hp => inMesh_node hm (a3 p hp)⟩
  · rw [f1]; exact g1
  · rw [f1]; exact g2
  · rw [f3, g4]

/-- After any sequence of requests for boxes of the mesh the file keeps its promises. -/
theorem export_good {nx ny nz : Int} (rs : List Request) (hr : ∀ r ∈ rs, Servable r ∧ InMesh nx ny nz r.bbox) :
    ∀ {s s' : State}, Good nx ny nz s → export_ nx ny rs s = some s' → Good nx ny nz s' := by
  induction rs with
  | nil => intro s s' h he; simp [export_] at he; rwa [← he]
  | cons r rs ih =>
    intro s s' h he
    have e1 : export_ nx ny (r :: rs) s = (addEntity nx ny s r.type r.name r.bbox r.step).bind (export_ nx ny rs) := rfl
    rw [e1] at he
    obtain ⟨s1, h1, h2⟩ := Option.bind_eq_some_iff.1 he
    obtain ⟨hsv, hm⟩ := hr r (by simp)
    exact ih (fun r' h' => hr r' (by simp [h'])) (entity_spec h hsv hm h1).1 h2

/-- The `p`-th request has the entity number `p + 1`. -/
theorem entity_numbers {nx ny : Int} (rs : List Request) : ∀ {s s' : State}, export_ nx ny rs s = some s' →
    s'.nextEntity = s.nextEntity + rs.length := by
  induction rs with
  | nil => intro s s' he; simp [export_] at he; simp [he]
  | cons r rs ih =>
    intro s s' he
    have e1 : export_ nx ny (r :: rs) s = (addEntity nx ny s r.type r.name r.bbox r.step).bind (export_ nx ny rs) := rfl
    rw [e1] at he
    obtain ⟨s1, h1, h2⟩ := Option.bind_eq_some_iff.1 he
    rw [ih h2]
    unfold addEntity at h1
    obtain ⟨tc, -, h3⟩ := Option.bind_eq_some_iff.1 h1
    obtain ⟨gn, -, h4⟩ := Option.map_eq_some_iff.1 h3
    rw [← h4, (foldl_fields nx ny _ _ _ _ _).2.1, List.length_cons]
    simp only
    omega

/-! ### The node section -/

/-- A node is written exactly when it is used, once, under its own number; all numbers are distinct; every element refers
to written nodes. -/
theorem node_section {nx ny nz : Int} {s : State} (h : Good nx ny nz s) :
    (∀ n t, (n, t) ∈ nodeSection nx ny nz s ↔ s.map t = some n) ∧
    ((nodeSection nx ny nz s).map Prod.fst).Nodup ∧
    (∀ el ∈ s.elems, ∀ n ∈ el.nodes, n ∈ (nodeSection nx ny nz s).map Prod.fst) ∧
    (∀ n ∈ (nodeSection nx ny nz s).map Prod.fst, 1 ≤ n ∧ n ≤ nx * ny * nz ∧ ∃ el ∈ s.elems, n ∈ el.nodes) := by
  have mem : ∀ n t, (n, t) ∈ nodeSection nx ny nz s ↔ s.map t = some n := by
    rintro n ⟨i, j, k⟩
    unfold nodeSection
    simp only [List.mem_flatMap, List.mem_filterMap, mem_below, Option.map_eq_some_iff, Prod.mk.injEq]
    constructor
    · rintro ⟨i', hi, j', hj, k', hk, n', hn, rfl, rfl, rfl, rfl⟩; exact hn
    · intro hn
      obtain ⟨-, ⟨h1, h2⟩, ⟨h3, h4⟩, h5, h6⟩ := h.numbers _ _ hn
      exact ⟨i, ⟨h1, h2⟩, j, ⟨h3, h4⟩, k, ⟨h5, h6⟩, n, hn, rfl, rfl, rfl, rfl⟩
  have nd : (nodeSection nx ny nz s).Nodup := by
    unfold nodeSection
    refine List.nodup_flatMap.2 ⟨fun i _ => List.nodup_flatMap.2 ⟨fun j _ => ?_, ?_⟩, ?_⟩
    · refine (nodup_below _ _).filterMap fun a b c hb hc => ?_
      simp only [Option.mem_def, Option.map_eq_some_iff] at hb hc
      obtain ⟨n1, -, rfl⟩ := hb
      obtain ⟨n2, -, h⟩ := hc
      simp only [Prod.mk.injEq] at h
      exact h.2.2.2.symm
    · refine (nodup_below _ _).imp fun {a b} hab => ?_
      rw [Function.onFun, List.disjoint_left]
      intro t h1 h2
      simp only [List.mem_filterMap, Option.map_eq_some_iff] at h1 h2
      obtain ⟨_, _, _, _, rfl⟩ := h1
      obtain ⟨_, _, _, _, h⟩ := h2
      simp only [Prod.mk.injEq] at h
      exact hab h.2.2.1.symm
    · refine (nodup_below _ _).imp fun {a b} hab => ?_
      rw [Function.onFun, List.disjoint_left]
      intro t h1 h2
      simp only [List.mem_flatMap, List.mem_filterMap, Option.map_eq_some_iff] at h1 h2
      obtain ⟨_, _, _, _, _, _, rfl⟩ := h1
      obtain ⟨_, _, _, _, _, _, h⟩ := h2
      simp only [Prod.mk.injEq] at h
      exact hab h.2.1.symm
  refine ⟨mem, ?_, ?_, ?_⟩
  · refine nd.map_on ?_
    rintro ⟨n, t⟩ h1 ⟨n', t'⟩ h2 he
    simp only at he
    subst he
    have a := h.numbers t n ((mem _ _).1 h1)
    have b := h.numbers t' n ((mem _ _).1 h2)
    rw [number_injective a.2 b.2 (a.1.symm.trans b.1)]
  · intro el hel n hn
    obtain ⟨t, ht⟩ := h.used el hel n hn
    exact List.mem_map.2 ⟨(n, t), (mem _ _).2 ht, rfl⟩
  · intro n hn
    obtain ⟨⟨n', t⟩, h1, rfl⟩ := List.mem_map.1 hn
    have h2 := (mem _ _).1 h1
    obtain ⟨h3, h4⟩ := h.numbers t n' h2
    obtain ⟨h5, h6⟩ := number_range h4
    simp only
    exact ⟨by rw [h3]; exact h5, by rw [h3]; exact h6, h.marked t n' h2⟩

/-! ### Groups -/

/-- A name stands for one group: two groups of the same name are the same. -/
theorem one_group {nx ny nz : Int} {s : State} (h : Good nx ny nz s) {g g' : Group} (hg : g ∈ s.groups) (hg' : g' ∈ s.groups)
    (hn : g.name = g'.name) : g = g' := List.inj_on_of_nodup_map h.names hg hg' hn

/-- Group numbers are distinct and run from one. -/
theorem group_numbers {nx ny nz : Int} {s : State} (h : Good nx ny nz s) (n : Nat) :
    (∃ g ∈ s.groups, g.number = n) ↔ 1 ≤ n ∧ n ≤ s.groups.length := by
  have : (∃ g ∈ s.groups, g.number = n) ↔ n ∈ s.groups.map Group.number := by simp
  rw [this, h.count]
  simp only [List.mem_map, List.mem_range]
  constructor
  · rintro ⟨m, hm, rfl⟩; omega
  · rintro ⟨h1, h2⟩; exact ⟨n - 1, by omega, by omega⟩

/-- Asking for a name again with another dimension ends the export. -/
theorem dimension_conflict {nx ny : Int} {s : State} {r : Request} {g : Group} (hg : findGroup s.groups r.name = some g)
    (hd : ∀ ty cs, corners r.type r.bbox r.step = some (ty, cs) → ty.dim ≠ g.dim) :
    addEntity nx ny s r.type r.name r.bbox r.step = none := by
  unfold addEntity
  cases hc : corners r.type r.bbox r.step with
  | none => rfl
  | some tc =>
    obtain ⟨ty, cs⟩ := tc
    rw [Option.bind_some]
    unfold addGroupIfNew
    rw [hg]
    simp only
    rw [if_pos (fun h => hd ty cs hc h.symm)]; rfl

/-- Otherwise a servable request is served. -/
theorem served {nx ny : Int} {s : State} {r : Request} (hr : Servable r)
    (hd : ∀ g, findGroup s.groups r.name = some g → ∀ ty cs, corners r.type r.bbox r.step = some (ty, cs) → g.dim = ty.dim) :
    ∃ s', addEntity nx ny s r.type r.name r.bbox r.step = some s' := by
  obtain ⟨ty, cs, hc, -⟩ := servable_corners hr
  unfold addEntity
  rw [hc, Option.bind_some]
  unfold addGroupIfNew
  cases hg : findGroup s.groups r.name with
  | none => exact ⟨_, rfl⟩
  | some g =>
    simp only
    rw [if_neg (by have := hd g hg ty cs hc; tauto)]
    exact ⟨_, rfl⟩

/-! ### The callers -/

/-- Sources are always servable. -/
theorem source_servable (name : String) (b : BBox) : ∃ r, sourceRequest name b = some r ∧ Servable r ∧ r.bbox = b := by
  obtain ⟨T, h, -⟩ := own_dimension_total b unitStep
  refine ⟨⟨T, "EX_" ++ name, b, unitStep⟩, ?_, Or.inr h, rfl⟩
  unfold sourceRequest
  rw [h]; rfl

/-- So are the faces of a mesh box. -/
theorem external_servable {mbox : BBox} (h : ∀ a : Axis, mbox a.lo < mbox a.hi) :
    ∀ r ∈ externalRequests mbox, Servable r := by
  have hx := h .x; have hy := h .y; have hz := h .z
  simp only [Axis.lo, Axis.hi] at hx hy hz
  intro r hr
  simp only [externalRequests, List.mem_cons, List.not_mem_nil, or_false] at hr
  rcases hr with rfl | rfl | rfl | rfl | rfl | rfl <;> right <;>
    simp [(degenerate_cases _).1, getFaceOfBoundingBox, mkBox, hx.ne, hy.ne, hz.ne]

/-- And the faces of a plane wave's box when that has a volume. -/
theorem plane_wave_servable {name : String} {b : BBox} {active : Face → Bool} (h : ∀ a : Axis, b a.lo ≠ b a.hi) :
    ∀ r ∈ planeWaveRequests name b active, Servable r := by
  have hx := h .x; have hy := h .y; have hz := h .z
  simp only [Axis.lo, Axis.hi] at hx hy hz
  intro r hr
  simp only [planeWaveRequests, List.mem_map, List.mem_filter] at hr
  obtain ⟨f, -, rfl⟩ := hr
  right
  cases f <;> simp [(degenerate_cases _).1, getFaceOfBoundingBox, mkBox, hx, hy, hz]

/-- A plane wave on a flat box, which the card parser accepts, aborts the export. -/
theorem flat_plane_wave_aborts {nx ny : Int} (s : State) (name : String) {b : BBox} (h : b .xlo = b .xhi) :
    ∀ r ∈ planeWaveRequests name b (fun f => f = .ylo), addEntity nx ny s r.type r.name r.bbox r.step = none := by
  intro r hr
  simp only [planeWaveRequests, List.mem_map, List.mem_filter] at hr
  obtain ⟨f, ⟨-, hf⟩, rfl⟩ := hr
  simp only [decide_eq_true_eq] at hf
  subst hf
  unfold addEntity
  have : corners .surface (getFaceOfBoundingBox b .ylo) unitStep = none := by
    have ht := (degenerate_cases (getFaceOfBoundingBox b .ylo)).1
    have e1 : getFaceOfBoundingBox b .ylo .xlo = getFaceOfBoundingBox b .ylo .xhi := h
    have e2 : getFaceOfBoundingBox b .ylo .ylo = getFaceOfBoundingBox b .ylo .yhi := rfl
    rw [if_pos e1, if_pos e2] at ht
    unfold corners
    split_ifs at ht <;> rw [ht]
  rw [this]; rfl

/-! ### A concrete export -/

/-- A block and an observer in a mesh of 3 * 3 * 3 nodes. -/
def exRequests : List Request :=
  [⟨.volume, "MT_a", fun f => match f with | .xlo | .ylo | .zlo => 0 | _ => 2, unitStep⟩,
   ⟨.point, "OP_p", fun f => match f with | .xlo | .ylo | .zlo => 0 | _ => 2, fun _ => 2⟩]

example : ∀ r ∈ exRequests, Servable r ∧ InMesh 3 3 3 r.bbox := by
  intro r hr
  simp only [exRequests, List.mem_cons, List.not_mem_nil, or_false] at hr
  rcases hr with rfl | rfl
  · exact ⟨Or.inr (by decide), by unfold InMesh; decide⟩
  · exact ⟨Or.inl ⟨rfl, by intro a; simp⟩, by unfold InMesh; decide⟩

example : (((export_ 3 3 exRequests State.init).map fun s => (s.elems.length, s.groups.length, (nodeSection 3 3 3 s).length)) =
    some (16, 2, 27)) := by decide +kernel

end Vulture.C36
