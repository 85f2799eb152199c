import Verif.Model.Source
import Verif.Spec.Drive
/- C27, first part: what the tags of an EX card mean. -/
namespace Vulture.C27
open Vulture Spec Source

/-- Physical quantity of each internal source type. -/
def typeOf : Quantity → SType
  | .E => .efield | .H => .hfield | .J => .ecurrDens | .JM => .mcurrDens | .JS => .esurfDens | .JMS => .msurfDens
  | .I => .ecurrent | .IM => .mcurrent | .ID => .emoment | .IMD => .mmoment | .V => .voltage | .VR => .thevenin
  | .IG => .norton

/-- All tags that can be written. -/
def allTags : List Tag :=
  [false, true].flatMap fun h =>
    [Quantity.E, .H, .J, .JM, .JS, .JMS, .I, .IM, .ID, .IMD, .V, .VR, .IG].flatMap fun q =>
      [Axis.x, .y, .z].flatMap fun p => [none, some Axis.x, some .y, some .z].map fun n => ⟨h, q, p, n⟩

theorem mem_allTags (t : Tag) : t ∈ allTags := by
  obtain ⟨h, q, p, n⟩ := t
  simp only [allTags, List.mem_flatMap, List.mem_map, Tag.mk.injEq]
  refine ⟨h, by cases h <;> simp, q, by cases q <;> simp, p, by cases p <;> simp, n, ?_, rfl, rfl, rfl, rfl⟩
  rcases n with _ | a
  · simp
  · cases a <;> simp

instance (t : Tag) : Decidable t.Valid := by
  unfold Tag.Valid
  rcases t with ⟨h, q, p, _ | n⟩ <;> infer_instance

/-- **C27** tags: every tag of the manual selects the quantity, direction, normal, field component and hardness it
names. -/
theorem tag_meaning (t : Tag) (h : t.Valid) : lookup t.spell =
    some ⟨typeOf t.qty, t.pol, t.norm, if t.qty.electric then t.pol.e else t.pol.h, !t.hard⟩ := by
  have : ∀ t ∈ allTags, t.Valid → lookup t.spell =
      some ⟨typeOf t.qty, t.pol, t.norm, if t.qty.electric then t.pol.e else t.pol.h, !t.hard⟩ := by decide +kernel
  exact this t (mem_allTags t) h

theorem mem_of_lookup {s : List Char} {i : TagInfo} (h : lookup s = some i) : (s, i) ∈ tables := by
  have : ∀ (l : List (List Char × TagInfo)) (r : Option TagInfo),
      l.foldl (fun r t => if s = t.1 then some t.2 else r) r = some i → r = some i ∨ (s, i) ∈ l := by
    intro l
    induction l with
    | nil => intro r h; exact Or.inl h
    | cons t l ih =>
      intro r h
      rcases ih _ h with h | h
      · dsimp only at h
        split at h
        · rename_i e
          cases h
          right
          rw [e]
          simp
        · exact Or.inl h
      · exact Or.inr (List.mem_cons_of_mem _ h)
  rcases this _ _ h with h | h
  · cases h
  · exact h

/-- **C27** tags: nothing else is accepted. -/
theorem tag_only {s : List Char} {i : TagInfo} (h : lookup s = some i) :
    ∃ t : Tag, t.Valid ∧ t.spell = s ∧ i = ⟨typeOf t.qty, t.pol, t.norm,
      if t.qty.electric then t.pol.e else t.pol.h, !t.hard⟩ := by
  have : ∀ x ∈ tables, ∃ t ∈ allTags, t.Valid ∧ t.spell = x.1 ∧ x.2 = ⟨typeOf t.qty, t.pol, t.norm,
      if t.qty.electric then t.pol.e else t.pol.h, !t.hard⟩ := by decide +kernel
  obtain ⟨t, _, h1, h2, h3⟩ := this _ (mem_of_lookup h)
  exact ⟨t, h1, h2, h3⟩

/-- Two tags are never spelt the same. -/
theorem spell_injective {t t' : Tag} (h : t.Valid) (h' : t'.Valid) (e : t.spell = t'.spell) : t = t' := by
  have : ∀ t ∈ allTags, t.Valid → ∀ t' ∈ allTags, t'.Valid → t.spell = t'.spell → t = t' := by decide +kernel
  exact this t (mem_allTags t) h t' (mem_allTags t') h' e

/-- The tag `=JMSZY`: hard magnetic surface current along z on a surface normal to y. -/
example : lookup "=JMSZY".toList = some ⟨.msurfDens, .z, some .y, .hz, false⟩ := by decide +kernel
example : lookup "JSXX".toList = none := by decide +kernel

end Vulture.C27
