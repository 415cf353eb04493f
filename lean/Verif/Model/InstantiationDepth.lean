import Verif.Model.VariantTransform

/-! # How deeply the templates which compute lists of types are nested

A compiler gives up when template instantiations are nested more deeply than a limit (`-ftemplate-depth`; [implimits] recommends 1024).  Every function here takes the number of further
levels `d` which the compiler permits; `none` is "the limit has been exceeded".  A base class, and a class whose member is named inside another class, is instantiated one level below that
class.  The levels needed by templates of the standard library and by the user's functor are parameters.  Simplified: no instantiation is taken to have been made before by other code. -/

namespace Makeshift.InstantiationDepth

variable {Ty : Type}

/-- [temp.inst]: a class template specialization is instantiated, using one level; what its definition needs has the remaining levels. -/
def inst {α : Type} (d : Nat) (body : Nat → Option α) : Option α :=
  match d with
  | 0 => none
  | d + 1 => body d

/-- Something outside the model which needs `n` nested levels is instantiated. -/
def need (n d : Nat) : Option Unit := if n ≤ d then some () else none

/-- detail/type_traits.hpp:135-140 `unique_sequence_0_`/`_1_`; `b n` is the number of levels needed by `is_in_<T, Ts...>` (128-133) with `n` types `Ts`. -/
def unique0 [DecidableEq Ty] (b : Nat → Nat) (Rs : List Ty) : List Ty → Nat → Option (List Ty)
  | [], d => inst d fun _ => some Rs                                                               -- 136
  | T0 :: Ts, d => inst d fun d =>                                                                 -- 140
    (need (b Ts.length) d).bind fun _ =>
      if isIn T0 Ts then inst d fun d => unique0 b Rs Ts d                                         -- 138
      else inst d fun d => unique0 b (Rs ++ [T0]) Ts d                                             -- 139

/-- detail/type_traits.hpp:141-142 `unique_sequence_`. -/
def unique [DecidableEq Ty] (b : Nat → Nat) (Ts : List Ty) (d : Nat) : Option (List Ty) :=
  inst d fun d => unique0 b [] Ts d

/-- detail/type_traits.hpp:144-158 `filter_sequence_0_`/`_1_`; `p T` is the number of levels needed by `PredT<T>`. -/
def filter0 (p : Ty → Nat) (pred : Ty → Bool) (Rs : List Ty) : List Ty → Nat → Option (List Ty)
  | [], d => inst d fun _ => some Rs                                                               -- 155-159
  | T0 :: Ts, d => inst d fun d =>                                                                 -- 152-154
    (need (p T0) d).bind fun _ =>
      if pred T0 then inst d fun d => filter0 p pred (Rs ++ [T0]) Ts d                             -- 146-148
      else inst d fun d => filter0 p pred Rs Ts d                                                  -- 149-151

/-- detail/type_traits.hpp:160-163 `filter_sequence_`. -/
def filter (p : Ty → Nat) (pred : Ty → Bool) (Ts : List Ty) (d : Nat) : Option (List Ty) :=
  inst d fun d => filter0 p pred [] Ts d

/-- detail/type_traits.hpp:165-169 `equal_types_`; `std::true_type` and `std::false_type` have been instantiated by the standard library.  `T0` is the type all previous ones are equal to;
`some none` is `false_type`. -/
def equal0 [DecidableEq Ty] (T0 : Ty) : List Ty → Nat → Option (Option Ty)
  | [], d => inst d fun _ => some (some T0)                                                        -- 167
  | T1 :: Ts, d => inst d fun d => if T0 = T1 then equal0 T0 Ts d else some none                   -- 168-169

/-- detail/type_traits.hpp:165-169 `equal_types_`. -/
def equal [DecidableEq Ty] : List Ty → Nat → Option (Option Ty)
  | [], d => inst d fun _ => some none                                                             -- 166
  | T0 :: Ts, d => equal0 T0 Ts d

/-- detail/type_traits.hpp:222-228 `type_sequence_cat_`. -/
def cat0 (Rs : List Ty) : List (List Ty) → Nat → Option (List Ty)
  | [], d => inst d fun _ => some Rs
  | Ns :: Ts, d => inst d fun d => cat0 (Rs ++ Ns) Ts d

/-- utility.hpp:95-96 `type_sequence_cat`. -/
def cat (Ts : List (List Ty)) (d : Nat) : Option (List Ty) := inst d fun d => cat0 [] Ts d

/-- detail/variant.hpp:196-201 `compute_strides_0_`; the `using` of line 202 is no instantiation. -/
def strides0 (cur : Nat) (strides : List Nat) : List Nat → Nat → Option (List Nat)
  | [], d => inst d fun _ => some strides
  | dim :: dims, d => inst d fun d => strides0 (cur * dim) (strides ++ [cur]) dims d

/-- The levels needed by the parts which are not part of this model: `size` for `seq_size_` and `compute_size_` (detail/variant.hpp:193-210, C++17), `call` for what is inside `for_idx` for the
given argument types (185-191, 219: `nth_variant_type` and the user's functor), `isIn` for `is_in_` with the given number of types, and `isVoid` for `is_not_void` (242). -/
structure Levels (Ty : Type) where
  size : Nat
  call : List Ty → Nat
  isIn : Nat → Nat
  isVoid : Ty → Nat

/-- detail/variant.hpp:212-240 `variant_transform_result_0_`, `variant_transform_results_0_`, `variant_transform_result_1_` and `for_idx`. -/
def results {R : Type} (l : Nat) (call : List Ty → Nat) (resTy : List Ty → R) (args : List (List Ty)) (d : Nat) : Option (List R) :=
  inst d fun d =>                                                                                  -- 232-240
    (need l d).bind fun _ =>                                                                       -- 236, 238
    let shape := args.map List.length
    (strides0 1 [] shape d).bind fun strides =>                                                    -- 237
    inst d fun d =>                                                                                -- 239, 226-230
      (List.range (computeSize shape)).mapM fun i =>
        (inst d fun _ => some ()).bind fun _ =>                                                    -- 228 `V1`
        (comboTypes args (decodeIndex shape strides i)).bind fun Ts =>
        inst d fun d => (need (call Ts) d).map fun _ => resTy Ts                                   -- 216-220

/-- detail/variant.hpp:244-253 `variant_transform_result_`. -/
def transformResult [DecidableEq Ty] (l : Levels Ty) (isVoid : Ty → Bool) (resTy : List Ty → Ty) (args : List (List Ty)) (d : Nat) : Option (List Ty) :=
  inst d fun d =>
    (results l.size l.call resTy args d).bind fun rs =>                                            -- 247
    (filter l.isVoid (fun T => !isVoid T) rs d).bind fun nonVoid =>                                -- 248
    (unique l.isIn nonVoid d).bind fun R =>                                                        -- 249
    inst d fun _ => some R                                                                         -- 250

/-- detail/variant.hpp:255-266 `flatten_variant_`. -/
def flatten (Rs : List Ty) : List (List Ty) → Nat → Option (List Ty)
  | [], d => inst d fun _ => some Rs
  | V0Ts :: Vs, d => inst d fun d => flatten (Rs ++ V0Ts) Vs d

/-- detail/variant.hpp:268-277 `variant_transform_many_result_`. -/
def manyResult [DecidableEq Ty] (l : Levels Ty) (resTys : List Ty → List Ty) (args : List (List Ty)) (d : Nat) : Option (List Ty) :=
  inst d fun d =>
    (results l.size l.call resTys args d).bind fun rs =>                                           -- 271
    (flatten [] rs d).bind fun flat =>                                                             -- 272
    (unique l.isIn flat d).bind fun R =>                                                           -- 273
    inst d fun _ => some R                                                                         -- 274

/-- detail/type_traits.hpp:100-112 `search_tuple_element_index_0`/`_1`; `q T` is the number of levels needed to ask the predicate about `T`, `c` the one needed by `std::integral_constant<>`. -/
def search0 (unique : Bool) (c : Nat) (q : Ty → Nat) (pred : Ty → Bool) (i : Nat) : List Ty → Nat → Option Int
  | [], d => inst d fun d => (need c d).map fun _ => elementNotFound                               -- 108
  | T0 :: Ts, d => inst d fun d =>                                                                 -- 109-112
    (need (q T0) d).bind fun _ => inst d fun d =>
      if pred T0 then
        if unique then                                                                             -- 102-103
          (search0 unique c q pred (i + 1) Ts d).bind fun r => (need c d).map fun _ => if r = elementNotFound then (i : Int) else elementNotUnique
        else (need c d).map fun _ => (i : Int)                                                     -- 104-105
      else search0 unique c q pred (i + 1) Ts d                                                    -- 106-107

/-- detail/type_traits.hpp:113 `search_tuple_element_index`. -/
def search (unique : Bool) (c : Nat) (q : Ty → Nat) (pred : Ty → Bool) (Ts : List Ty) (d : Nat) : Option Int :=
  inst d fun d => search0 unique c q pred 0 Ts d

end Makeshift.InstantiationDepth
