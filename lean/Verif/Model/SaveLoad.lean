import Verif.Model.Iomanip
import Verif.Model.TieMembers
import Verif.Model.TupleAlgo

/-!
# Saving and loading objects by the names of their members

Client programs which put together `member_names` and `search_member_index_by_name` (metadata.hpp:244-250 and 313-320), `tie_members`
(tuple.hpp:366-390), `template_for` (tuple.hpp:116-142), `as_enum` and `as_flags` (iomanip.hpp:39-88), each as modelled in the files
imported here:

    void save(std::ostream& stream, T const& x, std::vector<int> const& which)
    {
        for (int i : which)
        {
            stream << member_names<T>()[i] << ':';
            template_for([&](auto& member, auto j) { if (j == i) stream << as_enum(member); }, tie_members(x), tuple_index);
            stream << ',';
        }
    }
    void load(std::istream& stream, T& x, int n)
    {
        for (int k = 0; k != n; ++k)
        {
            std::string key;
            std::getline(stream, key, ':');
            gsl::index i = search_member_index_by_name<T>(key);
            if (i < 0) { stream.setstate(std::ios::failbit); return; }
            template_for([&](auto& member, auto j) { if (j == i) stream >> as_enum(member); }, tie_members(x), tuple_index);
            stream.get();
        }
    }

with `as_flags` instead of `as_enum` for members of flag types.  `none`: the program does not compile.  Output streams are good and have
width 0.
-/

namespace Makeshift.SaveLoad

open Makeshift.Metadata Makeshift.TieMembers

/-- How the members of a type are written and read: which manipulator is used for it, with the tables of the type.  The underlying type
of flags is unsigned. -/
inductive Codec where
  | enum (md : EnumMd Int)
  | flags (w : Nat) (md : FlagsMd w)

/-- `stream << as_enum(member)` or `stream << as_flags(member)`, iomanip.hpp:44-47 and 70-73. -/
def Codec.put (out : Str) (v : Int) : Codec → Outcome Str
  | .enum md => asEnumInsert md out v
  | .flags w md => asFlagsInsert md out (BitVec.ofInt w v)

/-- `stream >> as_enum(member)` or `stream >> as_flags(member)`, iomanip.hpp:48-60 and 74-87. -/
def Codec.get (st : IStream) (v : Int) : Codec → IStream × Int
  | .enum md => asEnumExtract md st v
  | .flags w md =>
    let r := asFlagsExtract md.toEnumMd st (BitVec.ofInt w v)
    (r.1, (r.2.toNat : Int))

/-- `std::getline(stream, key, delim)` for an empty string `key` ([string.io]). -/
def getline (delim : CChar) (st : IStream) : IStream × Str :=
  if st.good then
    let key := st.rest.takeWhile (· != delim)
    match st.rest.dropWhile (· != delim) with
    | [] => ({ st with rest := [], eofbit := true, failbit := key.isEmpty }, key)
    | _ :: r => ({ st with rest := r }, key)
  else ({ st with failbit := true }, [])

/-- The codecs of the members: by class and number of the member. -/
abbrev Codecs := Nat → Nat → Codec

/-- The functor of `save`: writes the member with index `i`. -/
def saveMember (codecs : Codecs) (m : Mem) (i : Nat) : Func Cell Unit (Outcome Str)
  | [.elem c, .indexConstant j], out => ((), if j = i then out.bind fun o => (codecs c.cls c.member).put o (m c) else out)
  | _, out => ((), out)

/-- One iteration of `save`.  `member_names<T>()[i]` is undefined if `i` is too large. -/
def saveEntry (env : Env) (codecs : Codecs) (T obj : Nat) (m : Mem) (i : Nat) (out : Str) : Option (Outcome Str) :=
  (available (memberNames env T)).bind fun names =>
  (tieMembers env T obj).bind fun cells =>
  (templateFor (-1) (saveMember codecs m i) [.tuple cells, .tupleIndex]
    (match names[i]? with
      | some (.sv n) => .ok (out ++ n ++ str ":")
      | _ => .ub)).map fun r => r.mapVal fun o => o ++ str ","

/-- `save`. -/
def save (env : Env) (codecs : Codecs) (T obj : Nat) (m : Mem) : List Nat → Str → Option (Outcome Str)
  | [], out => some (.ok out)
  | i :: is, out =>
    (saveEntry env codecs T obj m i out).bind fun r =>
      match r with
      | .ok out' => save env codecs T obj m is out'
      | e => some e

/-- The functor of `load`: reads the member with index `i`. -/
def loadMember (codecs : Codecs) (i : Int) : Func Cell Unit (IStream × Mem)
  | [.elem c, .indexConstant j], s =>
    ((), if (j : Int) = i then
        let r := (codecs c.cls c.member).get s.1 (s.2 c)
        (r.1, write s.2 c r.2)
      else s)
  | _, s => ((), s)

/-- One iteration of `load`; the result also tells whether to go on. -/
def loadEntry (env : Env) (codecs : Codecs) (T obj : Nat) (s : IStream × Mem) : Option (Bool × IStream × Mem) :=
  let k := getline 58 s.1
  (searchMemberIndexByName env T k.2).bind fun i =>
  if i < 0 then some (false, { k.1 with failbit := true }, s.2)
  else
    (tieMembers env T obj).bind fun cells =>
    (templateFor (-1) (loadMember codecs i) [.tuple cells, .tupleIndex] (k.1, s.2)).map fun r => (true, r.1.skip1, r.2)

/-- `load`. -/
def load (env : Env) (codecs : Codecs) (T obj : Nat) : Nat → IStream × Mem → Option (IStream × Mem)
  | 0, s => some s
  | n + 1, s =>
    (loadEntry env codecs T obj s).bind fun r => if r.1 then load env codecs T obj n r.2 else some r.2

end Makeshift.SaveLoad
