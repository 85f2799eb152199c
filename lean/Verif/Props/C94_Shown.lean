import Verif.Props.C94_Msh
/-
C94. The requests of a mesh file.
-/
set_option linter.unusedSimpArgs false
namespace Vulture.C94
open Vulture Gmsh Spec Deck

/-! ### Lists of requests and what they show -/

/-- The requests show the things of `P`, each by its name. -/
def Lists (rs : List Request) (P : Thing → Prop) : Prop :=
  ∃ ths : List (Request × Thing), ths.map Prod.fst = rs ∧ (∀ x ∈ ths, x.1.name = x.2.name ∧ Shows x.1 x.2.shape) ∧
    ∀ th, P th ↔ ∃ r, (r, th) ∈ ths

theorem lists_append {rs rs' : List Request} {P P' : Thing → Prop} (h : Lists rs P) (h' : Lists rs' P') :
    Lists (rs ++ rs') fun th => P th ∨ P' th := by
  obtain ⟨l, h1, h2, h3⟩ := h
  obtain ⟨l', h1', h2', h3'⟩ := h'
  refine ⟨l ++ l', by rw [List.map_append, h1, h1'], ?_, fun th => ?_⟩
  · intro x hx
    rcases List.mem_append.1 hx with hx | hx
    · exact h2 x hx
    · exact h2' x hx
  · simp only [h3, h3', ← exists_or, List.mem_append]

theorem lists_filterMap {α : Type} (l : List α) (F : α → Option (Request × Thing))
    (h : ∀ a ∈ l, ∀ x, F a = some x → x.1.name = x.2.name ∧ Shows x.1 x.2.shape) :
    Lists ((l.filterMap F).map Prod.fst) fun th => ∃ a ∈ l, ∃ r, F a = some (r, th) := by
  refine ⟨l.filterMap F, rfl, ?_, fun th => ?_⟩
  · intro x hx
    obtain ⟨a, ha, hf⟩ := List.mem_filterMap.1 hx
    exact h a ha x hf
  · simp only [List.mem_filterMap]
    constructor
    · rintro ⟨a, ha, r, hf⟩; exact ⟨r, a, ha, hf⟩
    · rintro ⟨r, a, ha, hf⟩; exact ⟨a, ha, r, hf⟩

theorem lists_iff {rs : List Request} {P Q : Thing → Prop} (h : Lists rs P) (hq : ∀ th, Q th ↔ P th) : Lists rs Q := by
  obtain ⟨l, h1, h2, h3⟩ := h
  exact ⟨l, h1, h2, fun th => (hq th).trans (h3 th)⟩

theorem lists_mem {rs : List Request} {P : Thing → Prop} (h : Lists rs P) {r : Request} (hr : r ∈ rs) :
    ∃ th, P th ∧ r.name = th.name ∧ Shows r th.shape := by
  obtain ⟨l, h1, h2, h3⟩ := h
  rw [← h1] at hr
  obtain ⟨⟨r', th⟩, hx, rfl⟩ := List.mem_map.1 hr
  obtain ⟨h4, h5⟩ := h2 _ hx
  exact ⟨th, (h3 th).2 ⟨_, hx⟩, h4, h5⟩

/-! ### Cards and items -/

/-- What the checks of a card say about its box. -/
def Checked (m : BBox) : Card → Prop
  | .mb c => bboxIsWithin c.bbox m = true ∧ bboxType c.bbox = some .volume
  | .tb c => bboxIsWithin c.bbox m = true ∧ bboxType c.bbox = some .surface
  | .tw c => bboxIsWithin c.bbox m = true ∧ bboxType c.bbox = some .line
  | .ex _ b _ _ _ _ _ _ => bboxIsWithin b m = true
  | .pw c _ => bboxIsWithin c.bbox m = true
  | .op c => bboxIsWithin c.bbox m = true
  | _ => True

/-- Name and box of an `EX` card. -/
def exOf : Card → Option (String × BBox)
  | .ex _ b n _ _ _ _ _ => some (n, b)
  | _ => none

/-- Name, box and active faces of a `PW` card. -/
def pwOf : Card → Option (String × BBox × (Face → Bool))
  | .pw c _ => some (c.name, c.bbox, pwActive c)
  | _ => none

/-- Name, box and steps of an `OP` card. -/
def opOf : Card → Option (String × BBox × (Axis → Int))
  | .op c => some (c.name, c.bbox, fun a => if c.ascii then 1 else match a with | .x => c.stepX | .y => c.stepY | .z => c.stepZ)
  | _ => none

theorem card_facts {s s' : Deck.State} {c : Card} (h : s.card c = some s') : Checked s.mbox c ∧ s'.mbox = s.mbox ∧
    s'.srcs.map (fun x => (x.name, x.mbbox)) = s.srcs.map (fun x => (x.name, x.mbbox)) ++ (exOf c).toList ∧
    s'.pws.map (fun x => (x.name, x.mbbox, x.active)) = s.pws.map (fun x => (x.name, x.mbbox, x.active)) ++ (pwOf c).toList ∧
    s'.obs.map (fun x => (x.name, x.mbbox, x.step)) = s.obs.map (fun x => (x.name, x.mbbox, x.step)) ++ (opOf c).toList ∧
    ((s.srcs.map SrcItem.name).Nodup → (s'.srcs.map SrcItem.name).Nodup) := by
  cases c <;> simp only [State.card] at h <;> (repeat' split at h) <;> simp at h <;> subst h <;>
    refine ⟨?_, rfl, ?_, ?_, ?_, ?_⟩ <;> simp_all [Checked, exOf, pwOf, opOf, parseMB, parseTB, parseTW, parseEX, parsePW,
      parseOP, obsOf, exCard, List.nodup_append]
  all_goals
    funext a
    split
    · rfl
    · cases a <;> rfl

theorem filterMap_one {α β : Type} (f : α → Option β) (c : α) (l : List α) :
    (c :: l).filterMap f = (f c).toList ++ l.filterMap f := by
  rw [List.filterMap_cons]
  cases f c <;> rfl

theorem read_facts : ∀ (l : List Card) (s s' : Deck.State), Deck.read s l = some s' → (∀ c ∈ l, Checked s.mbox c) ∧
    s'.mbox = s.mbox ∧
    s'.srcs.map (fun x => (x.name, x.mbbox)) = s.srcs.map (fun x => (x.name, x.mbbox)) ++ l.filterMap exOf ∧
    s'.pws.map (fun x => (x.name, x.mbbox, x.active)) = s.pws.map (fun x => (x.name, x.mbbox, x.active)) ++ l.filterMap pwOf ∧
    s'.obs.map (fun x => (x.name, x.mbbox, x.step)) = s.obs.map (fun x => (x.name, x.mbbox, x.step)) ++ l.filterMap opOf ∧
    ((s.srcs.map SrcItem.name).Nodup → (s'.srcs.map SrcItem.name).Nodup)
  | [], s, s', h => by simp [Deck.read] at h; subst h; simp
  | c :: l, s, s', h => by
    rw [C47.read_cons] at h
    obtain ⟨t, ht, h⟩ := Option.bind_eq_some_iff.1 h
    obtain ⟨a0, a1, a2, a3, a4, a5⟩ := card_facts ht
    obtain ⟨b0, b1, b2, b3, b4, b5⟩ := read_facts l t s' h
    refine ⟨?_, b1.trans a1, ?_, ?_, ?_, fun k => b5 (a5 k)⟩
    · intro x hx
      rcases List.mem_cons.1 hx with rfl | hx
      · exact a0
      · rw [← a1]; exact b0 x hx
    · rw [b2, a2, filterMap_one, List.append_assoc]
    · rw [b3, a3, filterMap_one, List.append_assoc]
    · rw [b4, a4, filterMap_one, List.append_assoc]

/-! ### Prefixes of names -/

theorem same_prefix {p q a b : String} (h : p ++ a = q ++ b) (hl : p.toList.length = q.toList.length) : p = q ∧ a = b := by
  have h1 : (p ++ a).toList = (q ++ b).toList := by rw [h]
  rw [String.toList_append, String.toList_append] at h1
  obtain ⟨h2, h3⟩ := List.append_inj h1 hl
  exact ⟨String.toList_inj.1 h2, String.toList_inj.1 h3⟩

/-- How the name of a request tells the type of its elements. -/
def Kind (s : Deck.State) (r : Request) : Prop := ∃ p n, r.name = p ++ n ∧
  ((p = "BT_" ∧ r.type = .surface) ∨ (p = "MT_" ∧ r.type = .volume) ∨ (p = "WT_" ∧ r.type = .line) ∨
    (p = "PW_" ∧ r.type = .surface) ∨ (p = "OP_" ∧ r.type = .point) ∨
    (p = "EX_" ∧ ∃ x ∈ s.srcs, n = x.name ∧ bboxType x.mbbox = some r.type))

theorem kind_dim {s : Deck.State} (hn : (s.srcs.map SrcItem.name).Nodup) {r r' : Request} (h : Kind s r) (h' : Kind s r')
    (e : r.name = r'.name) : dimOf r = dimOf r' := by
  unfold dimOf
  obtain ⟨p, n, h1, h⟩ := h
  obtain ⟨p', n', h1', h'⟩ := h'
  rw [h1, h1'] at e
  rcases h with ⟨rfl, h2⟩ | ⟨rfl, h2⟩ | ⟨rfl, h2⟩ | ⟨rfl, h2⟩ | ⟨rfl, h2⟩ | ⟨rfl, x, hx, rfl, h2⟩ <;>
    rcases h' with ⟨rfl, h2'⟩ | ⟨rfl, h2'⟩ | ⟨rfl, h2'⟩ | ⟨rfl, h2'⟩ | ⟨rfl, h2'⟩ | ⟨rfl, y, hy, rfl, h2'⟩ <;>
    obtain ⟨e1, e2⟩ := same_prefix e (by decide +kernel) <;>
    first
    | exact absurd e1 (by decide +kernel)
    | (rw [h2, h2']; done)
    | skip
  have : y = x := List.inj_on_of_nodup_map hn hy hx e2.symm
  subst this
  rw [h2, Option.some.injEq] at h2'
  rw [h2']

/-! ### Boxes -/

theorem face_box (b : BBox) (f : Face) : getFaceOfBoundingBox b f = faceBox b f := by
  funext g
  cases f <;> cases g <;> rfl

theorem face_type {b : BBox} (h : ∀ a : Axis, b a.lo < b a.hi) (f : Face) : bboxType (faceBox b f) = some .surface := by
  have hx := h .x; have hy := h .y; have hz := h .z
  simp only [Axis.lo, Axis.hi] at hx hy hz
  cases f <;> simp [(C36.degenerate_cases _).1, faceBox, acrossFace, hx.ne, hy.ne, hz.ne]

theorem in_mesh {n1 n2 n3 : Int} {b : BBox} (h : bboxIsWithin b (mkBox 0 n1 0 n2 0 n3) = true) :
    C36.InMesh (n1 + 1) (n2 + 1) (n3 + 1) b := by
  simp only [bboxIsWithin, Bool.and_eq_true, decide_eq_true_eq, ge_iff_le] at h
  simp only [mkBox] at h
  unfold C36.InMesh
  omega

theorem face_in_mesh {n1 n2 n3 : Int} {b : BBox} (h : bboxIsWithin b (mkBox 0 n1 0 n2 0 n3) = true)
    (hv : ∀ a : Axis, b a.lo < b a.hi) (f : Face) : C36.InMesh (n1 + 1) (n2 + 1) (n3 + 1) (faceBox b f) := by
  have hx := hv .x; have hy := hv .y; have hz := hv .z
  simp only [Axis.lo, Axis.hi] at hx hy hz
  simp only [bboxIsWithin, Bool.and_eq_true, decide_eq_true_eq, ge_iff_le] at h
  simp only [mkBox] at h
  unfold C36.InMesh
  cases f <;> simp only [faceBox, acrossFace] <;> simp <;> omega

/-! ### The requests of a file -/

theorem mapM_some {α β : Type} (l : List α) (f : α → Option β) (g : α → β) (h : ∀ a ∈ l, f a = some (g a)) :
    l.mapM f = some (l.map g) := by
  induction l with
  | nil => rfl
  | cons a l ih => rw [List.mapM_cons, h a (by simp), ih fun a ha => h a (by simp [ha])]; rfl

/-- The request made for a source. -/
def exReq (n : String) (b : BBox) : Request := ⟨(bboxType b).getD .point, "EX_" ++ n, b, unitStep⟩

theorem source_request (n : String) (b : BBox) : sourceRequest n b = some (exReq n b) ∧ bboxType b = some (exReq n b).type := by
  obtain ⟨T, h, -⟩ := C36.own_dimension_total b unitStep
  unfold sourceRequest exReq
  rw [h]
  exact ⟨rfl, rfl⟩

/-- The order in which the sides are shown. -/
def sides : List Face := [.zlo, .xlo, .ylo, .zhi, .xhi, .yhi]

theorem external_list (m : BBox) : externalRequests m =
    (sides.filterMap fun f => some ((⟨.surface, "BT_" ++ sideName f, faceBox m f, unitStep⟩ : Request),
      (⟨"BT_" ++ sideName f, .cells (faceBox m f)⟩ : Thing))).map Prod.fst := by
  simp only [externalRequests, sides, List.filterMap_cons_some, List.filterMap_nil, List.map_cons, List.map_nil, face_box]
  rfl

/-- All requests of an accepted file, and what they show. -/
theorem file_requests {f : File} {s : Deck.State} (external : Bool) (h : f.stored = some s) (hx : Exportable f) :
    ∃ rs, requests external f.cards s = some rs ∧ Lists rs (Shown f external) ∧
      (∀ r ∈ rs, C36.InMesh (f.nx + 1) (f.ny + 1) (f.nz + 1) r.bbox) ∧ ∀ r ∈ rs, Kind s r := by
  obtain ⟨hn, hr⟩ := C47.stored_parts h
  obtain ⟨hc, hm, hsrc, hpw, hob, -⟩ := read_facts _ _ _ hr
  have hm' : s.mbox = mkBox 0 f.nx 0 f.ny 0 f.nz := hm
  have hc' : ∀ c ∈ f.cards, Checked (mkBox 0 f.nx 0 f.ny 0 f.nz) c := hc
  have hsrc' : s.srcs.map (fun x => (x.name, x.mbbox)) = f.cards.filterMap exOf := hsrc
  have hpw' : s.pws.map (fun x => (x.name, x.mbbox, x.active)) = f.cards.filterMap pwOf := hpw
  have hob' : s.obs.map (fun x => (x.name, x.mbbox, x.step)) = f.cards.filterMap opOf := hob
  have hmesh : ∀ a : Axis, (mkBox 0 f.nx 0 f.ny 0 f.nz) a.lo < (mkBox 0 f.nx 0 f.ny 0 f.nz) a.hi := by
    intro a; cases a <;> simp only [mkBox, Axis.lo, Axis.hi] <;> omega
  have hself : bboxIsWithin (mkBox 0 f.nx 0 f.ny 0 f.nz) (mkBox 0 f.nx 0 f.ny 0 f.nz) = true := by
    simp [bboxIsWithin]
  -- the parts
  have p1 : Lists (if external then externalRequests s.mbox else [])
      fun th => external = true ∧ ∃ a, th = ⟨"BT_" ++ sideName a, .cells (faceBox (mkBox 0 f.nx 0 f.ny 0 f.nz) a)⟩ := by
    cases external
    · exact ⟨[], rfl, by simp, by simp⟩
    · rw [if_pos rfl, hm', external_list]
      refine lists_iff (lists_filterMap sides _ ?_) ?_
      · rintro a - x hx
        rw [Option.some.injEq] at hx
        subst hx
        exact ⟨rfl, .inl ⟨rfl, face_type hmesh a⟩⟩
      · intro th
        constructor
        · rintro ⟨-, a, rfl⟩
          exact ⟨a, by cases a <;> simp [sides], _, rfl⟩
        · rintro ⟨a, -, r, hx⟩
          simp only [Option.some.injEq, Prod.mk.injEq] at hx
          exact ⟨rfl, a, hx.2.symm⟩
  have p2 : Lists (f.cards.filterMap sheetRequest)
      fun th => ∃ c, Card.tb c ∈ f.cards ∧ th = ⟨"BT_" ++ c.boundary, .cells c.bbox⟩ := by
    have e : f.cards.filterMap sheetRequest = (f.cards.filterMap fun a => match a with
        | .tb c => some ((⟨.surface, "BT_" ++ c.boundary, c.bbox, unitStep⟩ : Request),
            (⟨"BT_" ++ c.boundary, .cells c.bbox⟩ : Thing))
        | _ => none).map Prod.fst := by
      rw [List.map_filterMap]
      congr 1; funext c; cases c <;> rfl
    rw [e]
    refine lists_iff (lists_filterMap f.cards _ ?_) ?_
    · intro a ha x hx
      cases a <;> simp at hx
      subst hx
      exact ⟨rfl, .inl ⟨rfl, (hc' _ ha).2⟩⟩
    · intro th
      constructor
      · rintro ⟨c, hc, rfl⟩; exact ⟨_, hc, _, rfl⟩
      · rintro ⟨a, ha, r, hx⟩
        cases a <;> simp at hx
        exact ⟨_, ha, hx.2.symm⟩
  have p3 : Lists (f.cards.filterMap blockRequest)
      fun th => ∃ c, Card.mb c ∈ f.cards ∧ th = ⟨"MT_" ++ c.medium, .cells c.bbox⟩ := by
    have e : f.cards.filterMap blockRequest = (f.cards.filterMap fun a => match a with
        | .mb c => some ((⟨.volume, "MT_" ++ c.medium, c.bbox, unitStep⟩ : Request),
            (⟨"MT_" ++ c.medium, .cells c.bbox⟩ : Thing))
        | _ => none).map Prod.fst := by
      rw [List.map_filterMap]
      congr 1; funext c; cases c <;> rfl
    rw [e]
    refine lists_iff (lists_filterMap f.cards _ ?_) ?_
    · intro a ha x hx
      cases a <;> simp at hx
      subst hx
      exact ⟨rfl, .inl ⟨rfl, (hc' _ ha).2⟩⟩
    · intro th
      constructor
      · rintro ⟨c, hc, rfl⟩; exact ⟨_, hc, _, rfl⟩
      · rintro ⟨a, ha, r, hx⟩
        cases a <;> simp at hx
        exact ⟨_, ha, hx.2.symm⟩
  have p4 : Lists (f.cards.filterMap wireRequest)
      fun th => ∃ c, Card.tw c ∈ f.cards ∧ th = ⟨"WT_" ++ c.wire, .cells c.bbox⟩ := by
    have e : f.cards.filterMap wireRequest = (f.cards.filterMap fun a => match a with
        | .tw c => some ((⟨.line, "WT_" ++ c.wire, c.bbox, unitStep⟩ : Request),
            (⟨"WT_" ++ c.wire, .cells c.bbox⟩ : Thing))
        | _ => none).map Prod.fst := by
      rw [List.map_filterMap]
      congr 1; funext c; cases c <;> rfl
    rw [e]
    refine lists_iff (lists_filterMap f.cards _ ?_) ?_
    · intro a ha x hx
      cases a <;> simp at hx
      subst hx
      exact ⟨rfl, .inl ⟨rfl, (hc' _ ha).2⟩⟩
    · intro th
      constructor
      · rintro ⟨c, hc, rfl⟩; exact ⟨_, hc, _, rfl⟩
      · rintro ⟨a, ha, r, hx⟩
        cases a <;> simp at hx
        exact ⟨_, ha, hx.2.symm⟩
  have p5 : Lists ((f.cards.filterMap exOf).map fun x => exReq x.1 x.2)
      fun th => ∃ x ∈ f.cards.filterMap exOf, th = ⟨"EX_" ++ x.1, .cells x.2⟩ := by
    have e : (f.cards.filterMap exOf).map (fun x => exReq x.1 x.2) = ((f.cards.filterMap exOf).filterMap fun x =>
        some (exReq x.1 x.2, (⟨"EX_" ++ x.1, .cells x.2⟩ : Thing))).map Prod.fst := by
      rw [List.filterMap_eq_map', List.map_map]; rfl
    rw [e]
    refine lists_iff (lists_filterMap _ _ ?_) ?_
    · intro a ha x hx
      rw [Option.some.injEq] at hx
      subst hx
      exact ⟨rfl, .inl ⟨rfl, (source_request _ _).2⟩⟩
    · intro th
      constructor
      · rintro ⟨x, hx, rfl⟩; exact ⟨x, hx, _, rfl⟩
      · rintro ⟨x, hx, r, he⟩
        simp only [Option.some.injEq, Prod.mk.injEq] at he
        exact ⟨x, hx, he.2.symm⟩
  have wave : ∀ x ∈ f.cards.filterMap pwOf, (∀ a : Axis, x.2.1 a.lo < x.2.1 a.hi) ∧
      bboxIsWithin x.2.1 (mkBox 0 f.nx 0 f.ny 0 f.nz) = true := by
    intro x hx'
    obtain ⟨c, hc1, hc2⟩ := List.mem_filterMap.1 hx'
    cases c <;> simp only [pwOf, reduceCtorEq, Option.some.injEq] at hc2
    subst hc2
    exact ⟨hx.1 _ _ hc1, hc' _ hc1⟩
  have p6 : Lists ((f.cards.filterMap pwOf).flatMap fun w => planeWaveRequests w.1 w.2.1 w.2.2)
      fun th => ∃ x ∈ f.cards.filterMap pwOf, ∃ a, x.2.2 a = true ∧ th = ⟨"PW_" ++ x.1, .cells (faceBox x.2.1 a)⟩ := by
    have e : ((f.cards.filterMap pwOf).flatMap fun w => planeWaveRequests w.1 w.2.1 w.2.2) =
        (((f.cards.filterMap pwOf).flatMap fun w => (Face.all.filter w.2.2).map fun a => (w, a)).filterMap fun x =>
          some ((⟨.surface, "PW_" ++ x.1.1, faceBox x.1.2.1 x.2, unitStep⟩ : Request),
            (⟨"PW_" ++ x.1.1, .cells (faceBox x.1.2.1 x.2)⟩ : Thing))).map Prod.fst := by
      rw [List.map_filterMap]
      simp only [Option.map_some, List.filterMap_eq_map', List.map_flatMap, List.map_map]
      congr 1; funext w
      simp only [planeWaveRequests, face_box]
      rfl
    rw [e]
    refine lists_iff (lists_filterMap _ _ ?_) ?_
    · rintro ⟨w, a⟩ ha x hx
      rw [Option.some.injEq] at hx
      subst hx
      obtain ⟨w', hw', ha⟩ := List.mem_flatMap.1 ha
      simp only [List.mem_map, Prod.mk.injEq] at ha
      obtain ⟨a', -, rfl, rfl⟩ := ha
      exact ⟨rfl, .inl ⟨rfl, face_type (wave _ hw').1 _⟩⟩
    · intro th
      constructor
      · rintro ⟨w, hw, a, ha, rfl⟩
        refine ⟨(w, a), List.mem_flatMap.2 ⟨w, hw, ?_⟩, _, rfl⟩
        simp only [List.mem_map, List.mem_filter, Prod.mk.injEq]
        exact ⟨a, ⟨by cases a <;> simp [Face.all], ha⟩, trivial, rfl⟩
      · rintro ⟨⟨w, a⟩, hw, r, he⟩
        simp only [Option.some.injEq, Prod.mk.injEq] at he
        obtain ⟨w', hw', ha⟩ := List.mem_flatMap.1 hw
        simp only [List.mem_map, List.mem_filter, Prod.mk.injEq] at ha
        obtain ⟨a', ⟨-, h2⟩, rfl, rfl⟩ := ha
        exact ⟨w', hw', a', h2, he.2.symm⟩
  have probe : ∀ x ∈ f.cards.filterMap opOf, (∀ a, 1 ≤ x.2.2 a) ∧
      bboxIsWithin x.2.1 (mkBox 0 f.nx 0 f.ny 0 f.nz) = true := by
    intro x hx'
    obtain ⟨c, hc1, hc2⟩ := List.mem_filterMap.1 hx'
    cases c with
    | op c =>
      simp only [opOf, Option.some.injEq] at hc2
      subst hc2
      refine ⟨fun a => ?_, hc' _ hc1⟩
      simp only
      split
      · exact le_refl _
      · rename_i hb
        obtain ⟨k1, k2, k3⟩ := hx.2 _ hc1 (by simpa using hb)
        cases a <;> assumption
    | _ => simp [opOf] at hc2
  have p7 : Lists ((f.cards.filterMap opOf).map fun o => ⟨.point, "OP_" ++ o.1, o.2.1, o.2.2⟩)
      fun th => ∃ x ∈ f.cards.filterMap opOf, th = ⟨"OP_" ++ x.1, .nodes x.2.1 x.2.2⟩ := by
    have e : ((f.cards.filterMap opOf).map fun o => (⟨.point, "OP_" ++ o.1, o.2.1, o.2.2⟩ : Request)) =
        ((f.cards.filterMap opOf).filterMap fun o => some ((⟨.point, "OP_" ++ o.1, o.2.1, o.2.2⟩ : Request),
          (⟨"OP_" ++ o.1, .nodes o.2.1 o.2.2⟩ : Thing))).map Prod.fst := by
      rw [List.filterMap_eq_map', List.map_map]; rfl
    rw [e]
    refine lists_iff (lists_filterMap _ _ ?_) ?_
    · intro a ha x hx
      rw [Option.some.injEq] at hx
      subst hx
      exact ⟨rfl, .inr ⟨rfl, rfl, (probe a ha).1⟩⟩
    · intro th
      constructor
      · rintro ⟨x, hx, rfl⟩; exact ⟨x, hx, _, rfl⟩
      · rintro ⟨x, hx, r, he⟩
        simp only [Option.some.injEq, Prod.mk.injEq] at he
        exact ⟨x, hx, he.2.symm⟩
  -- together
  have e5 : s.srcs.mapM (fun x => sourceRequest x.name x.mbbox) = some ((f.cards.filterMap exOf).map fun x => exReq x.1 x.2) := by
    rw [mapM_some s.srcs _ (fun x => exReq x.name x.mbbox) fun x _ => (source_request _ _).1, ← hsrc', List.map_map]
    rfl
  have e6 : (s.pws.flatMap fun w => planeWaveRequests w.name w.mbbox w.active) =
      (f.cards.filterMap pwOf).flatMap fun w => planeWaveRequests w.1 w.2.1 w.2.2 := by
    rw [← hpw', List.flatMap_map]
  have e7 : s.obs.map observerRequest = (f.cards.filterMap opOf).map fun o => ⟨.point, "OP_" ++ o.1, o.2.1, o.2.2⟩ := by
    rw [← hob', List.map_map]; rfl
  refine ⟨_, by unfold requests; rw [e5, e6, e7]; rfl, ?_, ?_, ?_⟩
  · refine lists_iff (lists_append (lists_append (lists_append (lists_append (lists_append (lists_append p1 p2) p3) p4) p5) p6) p7) ?_
    intro th
    constructor
    · rintro (⟨a, h⟩ | ⟨c, h⟩ | ⟨c, h⟩ | ⟨c, h⟩ | ⟨k, b, n, tag, w, z, d, o, h⟩ | ⟨c, d, a, h, ha⟩ | ⟨c, h⟩)
      · exact .inl (.inl (.inl (.inl (.inl (.inl ⟨h, a, rfl⟩)))))
      · exact .inl (.inl (.inl (.inl (.inl (.inr ⟨c, h, rfl⟩)))))
      · exact .inl (.inl (.inl (.inl (.inr ⟨c, h, rfl⟩))))
      · exact .inl (.inl (.inl (.inr ⟨c, h, rfl⟩)))
      · exact .inl (.inl (.inr ⟨(n, b), List.mem_filterMap.2 ⟨_, h, rfl⟩, rfl⟩))
      · exact .inl (.inr ⟨(c.name, c.bbox, pwActive c), List.mem_filterMap.2 ⟨_, h, rfl⟩, a, ha, rfl⟩)
      · exact .inr ⟨_, List.mem_filterMap.2 ⟨_, h, rfl⟩, rfl⟩
    · rintro ((((((⟨h, a, rfl⟩ | ⟨c, h, rfl⟩) | ⟨c, h, rfl⟩) | ⟨c, h, rfl⟩) | ⟨x, h, rfl⟩) | ⟨x, h, a, ha, rfl⟩) | ⟨x, h, rfl⟩)
      · exact .side a h
      · exact .sheet c h
      · exact .block c h
      · exact .wire c h
      · obtain ⟨c, h1, h2⟩ := List.mem_filterMap.1 h
        cases c <;> simp only [exOf, reduceCtorEq, Option.some.injEq] at h2
        subst h2
        exact .source _ _ _ _ _ _ _ _ h1
      · obtain ⟨c, h1, h2⟩ := List.mem_filterMap.1 h
        cases c <;> simp only [pwOf, reduceCtorEq, Option.some.injEq] at h2
        subst h2
        exact .wave _ _ a h1 ha
      · obtain ⟨c, h1, h2⟩ := List.mem_filterMap.1 h
        cases c <;> simp only [opOf, reduceCtorEq, Option.some.injEq] at h2
        subst h2
        exact .observer _ h1
  · intro r hr
    simp only [List.mem_append] at hr
    rcases hr with ((((((h | h) | h) | h) | h) | h) | h)
    · cases external
      · simp at h
      · rw [if_pos rfl, hm', external_list] at h
        simp only [List.mem_map, List.mem_filterMap] at h
        obtain ⟨x, ⟨a, -, hx⟩, rfl⟩ := h
        rw [Option.some.injEq] at hx; subst hx
        exact face_in_mesh hself hmesh a
    · obtain ⟨c, h1, h2⟩ := List.mem_filterMap.1 h
      cases c <;> simp only [sheetRequest, reduceCtorEq, Option.some.injEq] at h2
      subst h2
      exact in_mesh (hc' _ h1).1
    · obtain ⟨c, h1, h2⟩ := List.mem_filterMap.1 h
      cases c <;> simp only [blockRequest, reduceCtorEq, Option.some.injEq] at h2
      subst h2
      exact in_mesh (hc' _ h1).1
    · obtain ⟨c, h1, h2⟩ := List.mem_filterMap.1 h
      cases c <;> simp only [wireRequest, reduceCtorEq, Option.some.injEq] at h2
      subst h2
      exact in_mesh (hc' _ h1).1
    · obtain ⟨x, h0, rfl⟩ := List.mem_map.1 h
      obtain ⟨c, h1, h2⟩ := List.mem_filterMap.1 h0
      cases c <;> simp only [exOf, reduceCtorEq, Option.some.injEq] at h2
      subst h2
      exact in_mesh (hc' _ h1)
    · obtain ⟨w, hw, h⟩ := List.mem_flatMap.1 h
      simp only [planeWaveRequests, List.mem_map] at h
      obtain ⟨a, -, rfl⟩ := h
      rw [face_box]
      exact face_in_mesh (wave _ hw).2 (wave _ hw).1 a
    · obtain ⟨x, h0, rfl⟩ := List.mem_map.1 h
      exact in_mesh (probe _ h0).2
  · intro r hr
    simp only [List.mem_append] at hr
    rcases hr with ((((((h | h) | h) | h) | h) | h) | h)
    · cases external
      · simp at h
      · rw [if_pos rfl, hm', external_list] at h
        simp only [List.mem_map, List.mem_filterMap] at h
        obtain ⟨x, ⟨a, -, hx⟩, rfl⟩ := h
        rw [Option.some.injEq] at hx; subst hx
        exact ⟨_, _, rfl, .inl ⟨rfl, rfl⟩⟩
    · obtain ⟨c, h1, h2⟩ := List.mem_filterMap.1 h
      cases c <;> simp only [sheetRequest, reduceCtorEq, Option.some.injEq] at h2
      subst h2
      exact ⟨_, _, rfl, .inl ⟨rfl, rfl⟩⟩
    · obtain ⟨c, h1, h2⟩ := List.mem_filterMap.1 h
      cases c <;> simp only [blockRequest, reduceCtorEq, Option.some.injEq] at h2
      subst h2
      exact ⟨_, _, rfl, .inr (.inl ⟨rfl, rfl⟩)⟩
    · obtain ⟨c, h1, h2⟩ := List.mem_filterMap.1 h
      cases c <;> simp only [wireRequest, reduceCtorEq, Option.some.injEq] at h2
      subst h2
      exact ⟨_, _, rfl, .inr (.inr (.inl ⟨rfl, rfl⟩))⟩
    · rw [← hsrc', List.map_map] at h
      obtain ⟨x, h0, rfl⟩ := List.mem_map.1 h
      exact ⟨_, _, rfl, .inr (.inr (.inr (.inr (.inr ⟨rfl, x, h0, rfl, (source_request _ _).2⟩))))⟩
    · obtain ⟨w, hw, h⟩ := List.mem_flatMap.1 h
      simp only [planeWaveRequests, List.mem_map] at h
      obtain ⟨a, -, rfl⟩ := h
      exact ⟨_, _, rfl, .inr (.inr (.inr (.inl ⟨rfl, rfl⟩)))⟩
    · obtain ⟨x, h0, rfl⟩ := List.mem_map.1 h
      exact ⟨_, _, rfl, .inr (.inr (.inr (.inr (.inl ⟨rfl, rfl⟩))))⟩

end Vulture.C94
