import Verif.Model.MetadataResults

/-! Specification vocabulary for the results of metadata queries. -/

namespace Makeshift.Spec

open MetadataResults

/-- The queries whose type tells whether the metadata is available. -/
def TypeTells : Query → Prop
  | .extract _ _ | .name | .description | .bases => True
  | .valueDescriptions | .exclusiveMemberDescriptions | .memberNames | .memberDescriptions => True
  | _ => False

/-- The queries which return the value of a given type, or do not compile. -/
def Demands : Query → Prop
  | .extractTyped _ _ => True
  | _ => False

end Makeshift.Spec
