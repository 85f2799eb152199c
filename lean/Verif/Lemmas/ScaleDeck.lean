import Verif.Spec.Scale
import Verif.Props.C47_Deck
import Verif.Props.C48_Timing
set_option linter.unusedSimpArgs false
set_option linter.unusedVariables false
/- Reading the cards of an experiment in another unit of length. -/
namespace Vulture.Scaling
open Spec Setup Deck

section
variable {r : ℝ}

theorem find_map {α β : Type} (g : α → β) (l : List (String × α)) (n : String) :
    find (l.map fun x => (x.1, g x.2)) n = (find l n).map g := by
  unfold find
  rw [← List.map_reverse, List.find?_map]
  simp only [Function.comp_def, Option.map_map]

noncomputable def scaleSrc (r : ℝ) (x : SrcItem) : SrcItem :=
  { x with size := sizeFactor r x.info.type * x.size, delay := r * x.delay }

noncomputable def scalePw (r : ℝ) (x : PwItem) : PwItem := { x with delay := r * x.delay }

/-- What the parsers store, in the other unit. -/
noncomputable def scaleState (r : ℝ) (s : Deck.State) : Deck.State :=
  { s with
    media := s.media.map fun x => (x.1, scaleMed r x.2)
    bnds := s.bnds.map fun x => (x.1, scaleBnd r x.2)
    blocks := s.blocks.map fun x => { x with med := scaleMed r x.med }
    surfs := s.surfs.map fun x => { x with bnd := scaleBnd r x.bnd }
    srcs := s.srcs.map (scaleSrc r)
    pws := s.pws.map (scalePw r) }

theorem ite_not {α β : Type} {P Q : Prop} [Decidable P] [Decidable Q] (h : P ↔ Q) {g : α → β} {x : β} {y : α}
    (e : x = g y) : (if P then none else some x) = (if Q then none else some y).map g := by
  by_cases hP : P
  · rw [if_pos hP, if_pos (h.1 hP)]; rfl
  · rw [if_neg hP, if_neg (fun q => hP (h.2 q)), e]; rfl

theorem card_scale (r : ℝ) (s : Deck.State) (c : Deck.Card) :
    (scaleState r s).card (scaleCard r c) = (s.card c).map (scaleState r) := by
  have e1 : (scaleState r s).srcs.map SrcItem.name = s.srcs.map SrcItem.name := by simp [scaleState, scaleSrc]
  have e2 : (scaleState r s).pws.map PwItem.name = s.pws.map PwItem.name := by simp [scaleState, scalePw]
  have e3 : (scaleState r s).srcs.length = s.srcs.length := by simp [scaleState]
  have e4 : ∀ n, find (scaleState r s).media n = (find s.media n).map (scaleMed r) := fun n => find_map _ _ _
  have e5 : ∀ n, find (scaleState r s).bnds n = (find s.bnds n).map (scaleBnd r) := fun n => find_map _ _ _
  have e6 : ∀ n, (find (scaleState r s).media n).isSome = (find s.media n).isSome := by
    intro n; rw [e4, Option.isSome_map]
  have e7 : ∀ n, (find (scaleState r s).bnds n).isSome = (find s.bnds n).isSome := by
    intro n; rw [e5, Option.isSome_map]
  cases c with
  | mt n m =>
    simp only [State.card, scaleCard, e6]
    exact ite_not Iff.rfl (by simp [scaleState])
  | bt n m =>
    simp only [State.card, scaleCard, e7]
    exact ite_not Iff.rfl (by simp [scaleState])
  | wt n =>
    simp only [State.card, scaleCard]
    exact ite_not Iff.rfl (by simp [scaleState])
  | wf n =>
    simp only [State.card, scaleCard]
    exact ite_not Iff.rfl (by simp [scaleState])
  | mb c =>
    simp only [State.card, scaleCard, e4]
    cases find s.media c.medium with
    | none => rfl
    | some m =>
      simp only [Option.map_some, Option.isSome_map]
      exact C48.ite_same Iff.rfl (by simp [scaleState])
  | tb c =>
    simp only [State.card, scaleCard, e5]
    cases find s.bnds c.boundary with
    | none => rfl
    | some m =>
      simp only [Option.map_some, Option.isSome_map]
      exact C48.ite_same Iff.rfl (by simp [scaleState])
  | tw c =>
    simp only [State.card, scaleCard]
    exact C48.ite_same Iff.rfl (by simp [scaleState])
  | op c =>
    simp only [State.card, scaleCard]
    exact C48.ite_same Iff.rfl (by simp [scaleState, obsOf])
  | ex k b n tag w size delay resist =>
    simp only [State.card, scaleCard, e1, e3]
    cases hl : Source.lookup tag with
    | none => rfl
    | some i =>
      show (if parseEX s.mbox _ (fun n => s.waves.contains n) _ then _ else _) = _
      simp only
      refine C48.ite_same Iff.rfl ?_
      by_cases hb : (exCard k b n tag w).lumped = true
      · simp [scaleState, scaleSrc, hb, scaleMed]
      · simp [scaleState, scaleSrc, hb]
  | pw c delay =>
    simp only [State.card, scaleCard, e2]
    show (if parsePW s.mbox _ (fun n => s.waves.contains n) _ then _ else _) = _
    exact C48.ite_same Iff.rfl (by simp [scaleState, scalePw])

theorem read_scale (r : ℝ) : ∀ (l : List Deck.Card) (s : Deck.State),
    Deck.read (scaleState r s) (l.map (scaleCard r)) = (Deck.read s l).map (scaleState r)
  | [], s => rfl
  | c :: l, s => by
    rw [List.map_cons, C47.read_cons, C47.read_cons, card_scale]
    cases s.card c with
    | none => rfl
    | some t => simp [read_scale r l t]

theorem stored_scale (r : ℝ) (f : File) :
    ({ f with cards := f.cards.map (scaleCard r) } : File).stored = f.stored.map (scaleState r) := by
  unfold File.stored
  show (parseDM f.nx f.ny f.nz).bind _ = _
  cases parseDM f.nx f.ny f.nz with
  | none => rfl
  | some m =>
    simp only [Option.bind_some]
    exact read_scale r f.cards (State.init m)

theorem debyeItems_scale (r : ℝ) (c : Cfg) (l : List Blk) :
    debyeItems c (l.map fun x => { x with med := scaleMed r x.med }) = debyeItems c l := by
  unfold debyeItems
  rw [List.filterMap_map]
  congr 1
  funext b
  obtain ⟨q, m, w⟩ := b
  cases m <;> simp [scaleMed]

theorem sibcItems_scale (r : ℝ) (c : Cfg) (l : List Surf) :
    sibcItems c (l.map fun x => { x with bnd := scaleBnd r x.bnd }) = sibcItems c l := by
  unfold sibcItems
  rw [List.filterMap_map]
  congr 1
  funext b
  obtain ⟨q, m, w, a⟩ := b
  cases m <;> simp [scaleBnd]

theorem mapM_scale (r : ℝ) (cubic : Bool) (c : Cfg) (l : List PwItem) :
    (l.map (scalePw r)).mapM (pwItem cubic c) = l.mapM (pwItem cubic c) := by
  rw [List.mapM_map]
  rfl

end
end Vulture.Scaling
