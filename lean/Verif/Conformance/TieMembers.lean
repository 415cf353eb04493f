import Verif.Conformance.Metadata
import Verif.Model.TieMembers

/-!
# The project's own tests of `tie_members` and the lookup by name

test/test-metadata.cpp:341-406, run on the model (see Conformance/Metadata.lean).  `double` values are integers here.
-/

namespace Makeshift.Conformance

open Makeshift.Metadata Makeshift.TieMembers

/-- `members` of `COO1`, `COO2`, `AltLayoutSubCOO1`, `AltLayoutCOO1`: classes without base classes. -/
theorem allMembers9 : allMembers testEnv 9 = some (.tup [.memPtr 9 19 0, .memPtr 9 19 1, .memPtr 9 20 2]) := by
  rw [allMembers]; rfl
@[inherit_doc allMembers9]
theorem allMembers10 : allMembers testEnv 10 = some (.tup [.memPtr 10 19 0, .memPtr 10 19 1, .memPtr 10 20 2]) := by
  rw [allMembers]; rfl
@[inherit_doc allMembers9]
theorem allMembers17 :
    allMembers testEnv 17 = some (.tup [.memPtr 17 20 0, .memPtr 17 20 1, .memPtr 17 19 2, .memPtr 17 19 3]) := by
  rw [allMembers]; rfl
@[inherit_doc allMembers9]
theorem allMembers18 : allMembers testEnv 18 = some (.tup [.memPtr 18 20 0, .memPtr 18 19 1, .memPtr 18 19 2]) := by
  rw [allMembers]; rfl

/-- The references tied: objects 0 ... 5 are `coo1`, `coo2`, `sc1`, `sc2`, `alsc1a`, `alc1a`. -/
theorem tied :
    tieMembers testEnv 9 0 = some [⟨0, 9, 0⟩, ⟨0, 9, 1⟩, ⟨0, 9, 2⟩] ∧ tieMembers testEnv 10 1 = some [⟨1, 10, 0⟩, ⟨1, 10, 1⟩, ⟨1, 10, 2⟩] ∧
    tieMembers testEnv 15 2 = some [⟨2, 12, 0⟩, ⟨2, 12, 1⟩, ⟨2, 12, 2⟩, ⟨2, 15, 0⟩] ∧
    tieMembers testEnv 16 3 = some [⟨3, 12, 0⟩, ⟨3, 12, 1⟩, ⟨3, 12, 2⟩, ⟨3, 16, 0⟩] := by
  simp only [tieMembers, members, allMembers9, allMembers10, allMembers15, allMembers16]
  exact ⟨rfl, rfl, rfl, rfl⟩

/-- test-metadata.cpp:343-352: comparison with and assignment of a tuple of values, assignment of a tuple of references. -/
example (m : Mem) (h : [m ⟨0, 9, 0⟩, m ⟨0, 9, 1⟩, m ⟨0, 9, 2⟩] = [4, 5, 6]) :
    (tieMembers testEnv 9 0).map (·.map m) = some [4, 5, 6] ∧
    ∃ t u, tieMembers testEnv 9 0 = some t ∧ tieMembers testEnv 10 1 = some u ∧
      let m1 := assignValues [0, 1, 2] t [1, 2, 3] m
      let m2 := assignRefs [0, 1, 2] u t m1
      (m1 ⟨0, 9, 0⟩ = 1 ∧ m1 ⟨0, 9, 1⟩ = 2 ∧ m1 ⟨0, 9, 2⟩ = 3) ∧ equal m2 u t = true := by
  refine ⟨by rw [tied.1]; simpa using h, _, _, tied.1, tied.2.1, ⟨rfl, rfl, rfl⟩, rfl⟩

/-- test-metadata.cpp:354-364: `sc1` and `sc2`, of different classes with the same base class. -/
example (m : Mem) (h : [m ⟨2, 12, 0⟩, m ⟨2, 12, 1⟩, m ⟨2, 12, 2⟩, m ⟨2, 15, 0⟩] = [1, 2, 3, 4])
    (h' : [m ⟨3, 12, 0⟩, m ⟨3, 12, 1⟩, m ⟨3, 12, 2⟩, m ⟨3, 16, 0⟩] = [5, 6, 7, 8]) :
    ∃ t u, tieMembers testEnv 15 2 = some t ∧ tieMembers testEnv 16 3 = some u ∧ equal m t u = false ∧
      let m1 := assignRefs [0, 1, 2, 3] u t m
      let m2 := write m1 ⟨3, 12, 2⟩ 7
      let m3 := write m2 ⟨3, 12, 2⟩ 3
      let m4 := write m3 ⟨3, 16, 0⟩ 8
      equal m1 t u = true ∧ equal m2 t u = false ∧ equal m3 t u = true ∧ equal m4 t u = false := by
  simp only [List.cons.injEq, and_true] at h h'
  obtain ⟨h0, h1, h2, h3⟩ := h
  obtain ⟨k0, k1, k2, k3⟩ := h'
  refine ⟨_, _, tied.2.2.1, tied.2.2.2, ?_, ?_, ?_, ?_, ?_⟩ <;>
    simp [equal, assignRefs, write, h0, h1, h2, h3, k0]

/-- test-metadata.cpp:366-385 `find_member_by_name` and `tie_members_by_name` in a class with another layout. -/
theorem foundByName : findMemberByName testEnv 17 (str "i") = some (.memPtr 17 19 2) ∧ findMemberByName testEnv 17 (str "j") = some (.memPtr 17 19 3) ∧
    findMemberByName testEnv 17 (str "v") = some (.memPtr 17 20 0) ∧ findMemberByName testEnv 17 (str "v2") = some (.memPtr 17 20 1) := by
  simp only [findMemberByName, searchMemberByName, members, allMembers17]
  exact ⟨rfl, rfl, rfl, rfl⟩

@[inherit_doc foundByName]
theorem foundByName16 : findMemberByName testEnv 16 (str "i") = some (.memPtr 12 19 0) ∧ findMemberByName testEnv 16 (str "j") = some (.memPtr 12 19 1) ∧
    findMemberByName testEnv 16 (str "v") = some (.memPtr 12 20 2) ∧ findMemberByName testEnv 16 (str "v2") = some (.memPtr 16 20 0) := by
  simp only [findMemberByName, searchMemberByName, members, allMembers16]
  exact ⟨rfl, rfl, rfl, rfl⟩

example : tieMembersByName testEnv 17 4 [str "i", str "j", str "v", str "v2"] = some [⟨4, 17, 2⟩, ⟨4, 17, 3⟩, ⟨4, 17, 0⟩, ⟨4, 17, 1⟩] ∧
    tieMembersByName testEnv 16 3 [str "i", str "j", str "v", str "v2"] = some [⟨3, 12, 0⟩, ⟨3, 12, 1⟩, ⟨3, 12, 2⟩, ⟨3, 16, 0⟩] := by
  simp only [tieMembersByName, invokeByName, List.mapM_cons, List.mapM_nil, foundByName, foundByName16]
  exact ⟨rfl, rfl⟩

/-- test-metadata.cpp:386-398 `search_member_by_name` in a class which lacks one of the members. -/
example : searchMemberByName testEnv 18 (str "i") = some (.memPtr 18 19 1) ∧ searchMemberByName testEnv 18 (str "j") = some (.memPtr 18 19 2) ∧
    searchMemberByName testEnv 18 (str "v") = some (.memPtr 18 20 0) ∧ searchMemberByName testEnv 18 (str "v2") = some .nullopt := by
  simp only [searchMemberByName, members, allMembers18]
  exact ⟨rfl, rfl, rfl, rfl⟩

end Makeshift.Conformance
