import Verif.Lemmas.Metadata
import Verif.Model.MetadataConst

/-!
# Metadata of const-qualified types: C81
-/

namespace Makeshift.Props

open Makeshift.Metadata Makeshift.MetadataConst

/-- C81: for unqualified types the functions are those of C51-C53 and C80. -/
theorem C81_unqualified (env : CEnv) (T : Nat) :
    nameOf env ⟨false, T⟩ = name (env.reflect T) ∧ descriptionOf env ⟨false, T⟩ = description (env.reflect T) ∧
    basesOf env ⟨false, T⟩ = bases env.toEnv T ∧ valuesOf env ⟨false, T⟩ = values env.toEnv T ∧
    valueNamesOf env ⟨false, T⟩ = valueNames env.toEnv T ∧ valueDescriptionsOf env ⟨false, T⟩ = valueDescriptions env.toEnv T ∧
    exclusiveMembersOf env ⟨false, T⟩ = exclusiveMembers env.toEnv T ∧
    exclusiveMemberNamesOf env ⟨false, T⟩ = exclusiveMemberNames env.toEnv T ∧
    exclusiveMemberDescriptionsOf env ⟨false, T⟩ = exclusiveMemberDescriptions env.toEnv T ∧
    membersOf env ⟨false, T⟩ = members env.toEnv T ∧ memberNamesOf env ⟨false, T⟩ = memberNames env.toEnv T ∧
    memberDescriptionsOf env ⟨false, T⟩ = memberDescriptions env.toEnv T :=
  ⟨rfl, rfl, rfl, rfl, rfl, rfl, rfl, rfl, rfl, rfl, rfl, rfl⟩

/-- C81 (partial): values, members and their names, member descriptions and the availability of metadata are the same for `T const` as
for `T`, whatever the reflector says about `T const`. Missing: the name, the description, the base classes, the value descriptions and
the descriptions of own members, for which the claim is false (`C81_const_unavailable`). -/
theorem C81_const_partial (env : CEnv) (T : Nat) :
    valuesOf env ⟨true, T⟩ = values env.toEnv T ∧ valueNamesOf env ⟨true, T⟩ = valueNames env.toEnv T ∧
    exclusiveMembersOf env ⟨true, T⟩ = exclusiveMembers env.toEnv T ∧
    exclusiveMemberNamesOf env ⟨true, T⟩ = exclusiveMemberNames env.toEnv T ∧
    membersOf env ⟨true, T⟩ = members env.toEnv T ∧ memberNamesOf env ⟨true, T⟩ = memberNames env.toEnv T ∧
    memberDescriptionsOf env ⟨true, T⟩ = memberDescriptions env.toEnv T ∧
    (isAvailableFor env ⟨true, T⟩ = true ↔ env.reflect T ≠ .nullopt) := by
  refine ⟨rfl, rfl, rfl, rfl, rfl, rfl, rfl, ?_⟩
  show (env.reflect T).isAvailable = true ↔ _
  cases env.reflect T <;> simp [Md.isAvailable]

/-- C81 is false: with a reflector which, like the default one, has metadata only for unqualified types, nothing else is available for
`T const`, whatever the metadata of `T` is. -/
theorem C81_const_unavailable (env : CEnv) (T : Nat) (h : env.reflectConst T = .nullopt) :
    nameOf env ⟨true, T⟩ = some .nullopt ∧ descriptionOf env ⟨true, T⟩ = some .nullopt ∧ basesOf env ⟨true, T⟩ = some .nullopt ∧
    valueDescriptionsOf env ⟨true, T⟩ = some .nullopt ∧ exclusiveMemberDescriptionsOf env ⟨true, T⟩ = some .nullopt := by
  have hg : getMetadata env ⟨true, T⟩ = .nullopt := by simp [getMetadata, h]
  refine ⟨?_, ?_, ?_, ?_, ?_⟩
  · rw [nameOf, extractOf, hg]; rfl
  · rw [descriptionOf, extractOf, hg]; rfl
  · rw [basesOf, hg]; rfl
  · rw [valueDescriptionsOf, extractForValues, hg]; rfl
  · rw [exclusiveMemberDescriptionsOf, extractForExclusiveMembers, hg]; rfl

/-- C81: so a type `T const` may have values with names, and metadata "available for" it, but no name or base classes. -/
theorem C81_inconsistent : ∃ (env : CEnv) (T : Nat) (s : Str), isAvailableFor env ⟨true, T⟩ = true ∧
    valueNamesOf env ⟨true, T⟩ = some (.arr .sv [.sv s]) ∧ nameOf env ⟨false, T⟩ = some (.sv [84]) ∧ nameOf env ⟨true, T⟩ = some .nullopt :=
  ⟨{ reflect := fun _ => .tup [.cstr [84], .tup [.tup [.val 0 7, .cstr [97]]]], isBaseOf := fun _ _ => false, isClass := fun _ => false,
     base_le := fun _ _ h => (by cases h), reflectConst := fun _ => .nullopt }, 0, [97], rfl, rfl, rfl, rfl⟩

/-- C81: a reflector which knows about `T const` as well makes all functions agree. -/
theorem C81_generic_reflector (env : CEnv) (T : Nat) (h : env.reflectConst T = env.reflect T) :
    nameOf env ⟨true, T⟩ = nameOf env ⟨false, T⟩ ∧ descriptionOf env ⟨true, T⟩ = descriptionOf env ⟨false, T⟩ ∧
    basesOf env ⟨true, T⟩ = basesOf env ⟨false, T⟩ ∧ valueDescriptionsOf env ⟨true, T⟩ = valueDescriptionsOf env ⟨false, T⟩ ∧
    exclusiveMemberDescriptionsOf env ⟨true, T⟩ = exclusiveMemberDescriptionsOf env ⟨false, T⟩ := by
  have hg : getMetadata env ⟨true, T⟩ = getMetadata env ⟨false, T⟩ := by simp [getMetadata, h]
  refine ⟨?_, ?_, ?_, ?_, ?_⟩
  · rw [nameOf, nameOf, extractOf, extractOf, hg]
  · rw [descriptionOf, descriptionOf, extractOf, extractOf, hg]
  · rw [basesOf, basesOf, hg]
  · rw [valueDescriptionsOf, valueDescriptionsOf, extractForValues, extractForValues, hg]
  · rw [exclusiveMemberDescriptionsOf, exclusiveMemberDescriptionsOf, extractForExclusiveMembers, extractForExclusiveMembers, hg]

/-- A class with a named member and one base class; the reflector knows the unqualified type only. -/
def constEnv : CEnv :=
  { reflect := fun u => if u = 1 then .tup [.cstr [67], .tup [.typeId 0], .tup [.tup [.memPtr 1 5 0, .cstr [120]]]] else .nullopt
    isBaseOf := fun u t => decide (u = 0 ∧ t = 1)
    isClass := fun _ => true
    base_le := fun u t h => by simp at h; omega
    reflectConst := fun _ => .nullopt }

-- a case of `C81_const_unavailable` in which the class has a name, members and base classes
example : constEnv.reflectConst 1 = .nullopt ∧ basesOf constEnv ⟨false, 1⟩ = some (.tup [.typeId 0]) ∧
    basesOf constEnv ⟨true, 1⟩ = some .nullopt ∧ exclusiveMembersOf constEnv ⟨true, 1⟩ = some (.tup [.memPtr 1 5 0]) := ⟨rfl, rfl, rfl, rfl⟩
-- and of `C81_generic_reflector`
example : ({ constEnv with reflectConst := constEnv.reflect } : CEnv).reflectConst 1 = constEnv.reflect 1 ∧
    nameOf { constEnv with reflectConst := constEnv.reflect } ⟨true, 1⟩ = some (.sv [67]) := ⟨rfl, rfl⟩

end Makeshift.Props
