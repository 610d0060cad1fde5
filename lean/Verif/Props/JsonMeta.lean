import Verif.Model.JsonMeta
import Verif.Props.Json
import Verif.Props.Grid
/-!
# C101: GridPapers, with the codec they really use

The theorems on GridPapers (C55, C56, C86, C87, C99) ask for a codec that brings an array's metadata back. Here the codec is
the JSON one, and that assumption goes.
-/
namespace Verif.Props
open Verif Verif.Model Verif.Spec Verif.Lemmas
variable {F : Type} {FT : Floats F}

/-- numbers of metadata that can be written: at most `lim` digits (0 is no limit) -/
def ShortMeta (lim : Nat) (m : ArrMeta) : Prop := Short lim m.size ∧ ∀ n ∈ m.shape, Short lim (n : Nat)

theorem textOK_codes (s : Str) : TextOK (codes s) := by
  intro c hc
  obtain ⟨d, _, rfl⟩ := List.mem_map.1 hc
  have := d.valid
  simp only [UInt32.isValidChar, Nat.isValidChar] at this
  show d.val.toNat < 1114112
  omega

theorem not_surrogate (d : Char) : ¬ high d.toNat ∧ ¬ low d.toNat := by
  have h := d.valid
  simp only [UInt32.isValidChar, Nat.isValidChar] at h
  have e : d.toNat = d.val.toNat := rfl
  unfold high low
  rw [e]
  omega

theorem noPair_codes (s : Str) : NoPair (codes s) := by
  induction s with
  | nil => trivial
  | cons a s ih =>
    refine noPair_cons ?_ ih
    intro b r _ hh
    exact (not_surrogate a).1 hh.1

theorem joined_codes (s : Str) : joined (codes s) = codes s := (joined_eq_iff _).2 (noPair_codes s)

theorem jsonImages_ints (l : List Nat) : jsonImages FT (l.map fun n => (PyVal.int (n : Nat) : PyVal F)) = l.map fun n => PyVal.int (n : Nat) := by
  induction l with
  | nil => rfl
  | cons a l ih => simp only [List.map_cons, jsonImages, ih, jsonImage]

theorem propers_ints (l : List Nat) : Propers (l.map fun n => (PyVal.int (n : Nat) : PyVal F)) := by
  induction l with
  | nil => simp [Propers]
  | cons a l ih => simp only [List.map_cons, Propers]; exact ⟨by simp [Proper], ih⟩

theorem jsonAbles_ints {lim : Nat} {l : List Nat} (h : ∀ n ∈ l, Short lim (n : Nat)) :
    JsonAbles lim (l.map fun n => (PyVal.int (n : Nat) : PyVal F)) := by
  induction l with
  | nil => simp [JsonAbles]
  | cons a l ih =>
    simp only [List.map_cons, JsonAbles]
    exact ⟨by simp only [JsonAble]; exact h a (by simp), ih fun n hn => h n (by simp [hn])⟩

theorem asLens_ints (l : List Nat) : asLens (l.map fun n => (PyVal.int (n : Nat) : PyVal F)) = .ok l := by
  induction l with
  | nil => rfl
  | cons a l ih =>
    have h : ¬ ((a : Int) < 0) := by omega
    simp only [List.map_cons, asLens, asLen, if_neg h, ih, bind, Except.bind]
    rfl

theorem metaVal_proper (m : ArrMeta) : Proper (metaVal m : PyVal F) := by
  have hk : (([(.str (codes "name".toList), .str (codes m.name)), (.str (codes "dtype".toList), .str (codes m.dtype)),
    (.str (codes "shape".toList), .tuple (m.shape.map fun n => .int (n : Nat))), (.str (codes "size".toList), .int m.size)] :
      List (PyVal F × PyVal F)).map Prod.fst).Nodup := by
    simp [codes]
  simp only [metaVal, Proper, ProperItems]
  exact ⟨hk, textOK_codes _, textOK_codes _, textOK_codes _, textOK_codes _, textOK_codes _, propers_ints _, textOK_codes _,
    trivial, trivial⟩

theorem metaVal_able {lim : Nat} {m : ArrMeta} (h : ShortMeta lim m) : JsonAble lim (metaVal m : PyVal F) := by
  simp only [metaVal, JsonAble, JsonAbleItems]
  exact ⟨trivial, trivial, trivial, trivial, trivial, jsonAbles_ints h.2, trivial, h.1, trivial⟩

/-- what comes back of metadata: the shape as a list -/
theorem metaVal_image (m : ArrMeta) : jsonImage FT (metaVal m) =
    .dict [(.str (codes "name".toList), .str (codes m.name)), (.str (codes "dtype".toList), .str (codes m.dtype)),
      (.str (codes "shape".toList), .list (m.shape.map fun n => .int (n : Nat))), (.str (codes "size".toList), .int m.size)] := by
  simp only [metaVal, jsonImage, jsonPairs, keyString, joined_codes, jsonImages_ints]
  rw [merged_of_nodup]
  · rfl
  · simp [codes]

theorem metaOfVal_image (m : ArrMeta) : metaOfVal (jsonImage FT (metaVal m)) = .ok m := by
  have h : ¬ ((m.size : Int) < 0) := by omega
  have n1 : ¬ codes "name".toList = codes "shape".toList := by decide
  have n2 : ¬ codes "dtype".toList = codes "shape".toList := by decide
  have n3 : ¬ codes "name".toList = codes "dtype".toList := by decide
  have n4 : ¬ codes "name".toList = codes "size".toList := by decide
  have n5 : ¬ codes "dtype".toList = codes "size".toList := by decide
  have n6 : ¬ codes "shape".toList = codes "size".toList := by decide
  rw [metaVal_image]
  simp only [metaOfVal, item, if_neg n1, if_neg n2, if_neg n3, if_neg n4, if_neg n5, if_neg n6, if_true, asStr, asShape,
    chars_codes, asLens_ints, asLen, if_neg h, bind, Except.bind]
  rfl

/-- C101: the metadata of an array, stored with the JSON codec, come back, unless a number in them has too many digits -/
theorem C101_metadata_come_back (FT : Floats F) (hF : FloatsOK FT) (lim : Nat) (m : ArrMeta) (hm : ShortMeta lim m) :
    ∃ b, (jsonMeta FT lim).encode m = .ok b ∧ b ≠ [] ∧ (jsonMeta FT lim).decode b = .ok m := by
  obtain ⟨b, hb⟩ := (C100_encodes_iff FT lim (metaVal m)).2 (metaVal_able hm)
  refine ⟨b, hb, (C100_ascii FT hF lim _ b hb).1, ?_⟩
  simp only [jsonMeta, C100_comes_back FT hF lim _ (metaVal_proper m) b hb, bind, Except.bind]
  exact metaOfVal_image m

/-- an array GridPapers keep: not 0-dimensional, not empty, of the size its shape and type say, its numbers not too long -/
structure Keepable (nbytes : Str → List Nat → Nat) (lim : Nat) (a : Arr) : Prop where
  dim : a.shape ≠ []
  data : a.data ≠ []
  size : nbytes a.dtype a.shape = a.data.length
  short : Short lim a.data.length ∧ ∀ n ∈ a.shape, Short lim (n : Nat)

/-- C101: so the arrays that survive in a GridPaper are these, whatever the prefix and key -/
theorem C101_arrays_survive (FT : Floats F) (hF : FloatsOK FT) (nbytes : Str → List Nat → Nat) (lim : Nat) (pre k : Str) (a : Arr)
    (h : Keepable nbytes lim a) : ArrOK (jsonMeta FT lim) nbytes pre k a :=
  ⟨h.dim, h.data, h.size, C101_metadata_come_back FT hF lim _ h.short⟩

/-- calls of a history that store only such arrays -/
def KeepableOp (E : Env) (nbytes : Str → List Nat → Nat) (lim : Nat) (U : Str → Prop) (noLock : Bool) : GridOp → Prop
  | .create mode => mode.Runs ∧ (noLock = true → mode = .fake)
  | .join mode => mode.Runs ∧ (noLock = true → mode = .fake)
  | .set _ k a => k.hashed E = E.utf8 k.text ∧ U k.text ∧ Keepable nbytes lim a
  | .get _ k => k.hashed E = E.utf8 k.text ∧ U k.text
  | .getD _ k _ => k.hashed E = E.utf8 k.text ∧ U k.text
  | .del _ k => noLock = true ∧ k.hashed E = E.utf8 k.text ∧ U k.text
  | .keys _ => True
  | .close _ => noLock = true

/-- C101: a GridPaper with the JSON codec is a dictionary of arrays (C55 without an assumption on the codec) -/
theorem C101_gridpaper_with_json (FT : Floats F) (hF : FloatsOK FT) (lim : Nat) (E : Env) (nbytes : Str → List Nat → Nat)
    (pre : Str) (U : Str → Prop) (hU : KeysOK E pre U) (hok : NamesOK E (indexName pre)) (noLock : Bool) (ops : List GridOp)
    (hops : ∀ o ∈ ops, KeepableOp E nbytes lim U noLock o) (hlen : 2 * ops.length < 256 ^ 5) (s0 : Store) (w : s0.WF)
    (hno : NoGrid s0 pre) :
    gridAnswersOK arrSize gridStart (ops.map GridOp.call) (playGrid E (jsonMeta FT lim) nbytes pre ops [] s0).1 := by
  refine (C55_gridpaper_is_a_dictionary E (jsonMeta FT lim) nbytes pre U hU hok noLock ops (fun o ho => ?_) hlen s0 w hno).1
  have h := hops o ho
  cases o with
  | set i k a => exact ⟨h.1, h.2.1, C101_arrays_survive FT hF nbytes lim pre _ a h.2.2⟩
  | create mode => exact h
  | join mode => exact h
  | get i k => exact h
  | getD i k d => exact h
  | del i k => exact h
  | keys i => exact h
  | close i => exact h

/-- the metadata of a 2 by 2 array under a key with an umlaut -/
def sampleMeta : ArrMeta := ⟨"p_ä".toList, "<f4".toList, [2, 2], 16⟩

theorem sampleMeta_short : ShortMeta 4300 sampleMeta := by
  refine ⟨Or.inr (by decide), fun n hn => Or.inr ?_⟩
  simp only [sampleMeta, List.mem_cons, List.not_mem_nil, or_false, or_self] at hn
  subst hn
  decide

example : (jsonMeta wholeFloats 4300).encode sampleMeta =
    .ok (codes "{\"name\": \"p_\\u00e4\", \"dtype\": \"<f4\", \"shape\": [2, 2], \"size\": 16}".toList) := rfl

example : ∃ b, (jsonMeta wholeFloats 4300).encode sampleMeta = .ok b ∧ b ≠ [] ∧
    (jsonMeta wholeFloats 4300).decode b = .ok sampleMeta :=
  C101_metadata_come_back wholeFloats wholeFloats_ok 4300 _ sampleMeta_short

theorem sq_keepable : Keepable u1Bytes 4300 sq :=
  ⟨by simp [sq], by simp [sq], rfl, Or.inr (by decide), fun n hn => Or.inr (by
    simp only [sq, List.mem_cons, List.not_mem_nil, or_false, or_self] at hn; subst hn; decide)⟩

theorem row3_keepable : Keepable u1Bytes 4300 row3 :=
  ⟨by simp [row3], by simp [row3], rfl, Or.inr (by decide), fun n hn => Or.inr (by
    simp only [row3, List.mem_cons, List.not_mem_nil, or_false] at hn; subst hn; decide)⟩

/-- a client stores an array, another replaces it and reads it -/
def jsonGrids : List GridOp := [.create .fake, .set 0 kA sq, .join .fake, .set 1 kA row3, .get 0 kA, .del 1 kA, .close 0]

example : gridAnswersOK arrSize gridStart (jsonGrids.map GridOp.call)
    (playGrid labEnv (jsonMeta wholeFloats 4300) u1Bytes np jsonGrids [] Store.empty).1 := by
  have hA := labKey_lab kA (by simp)
  refine C101_gridpaper_with_json wholeFloats wholeFloats_ok 4300 labEnv u1Bytes np labKeys (labKeysOK np) (labIndexOK np) true
    jsonGrids ?_ (by decide) Store.empty wf_empty (fun x _ => rfl)
  intro o ho
  simp only [jsonGrids, List.mem_cons, List.not_mem_nil, or_false] at ho
  rcases ho with rfl | rfl | rfl | rfl | rfl | rfl | rfl
  · exact ⟨trivial, fun _ => rfl⟩
  · exact ⟨hA.1, hA.2, sq_keepable⟩
  · exact ⟨trivial, fun _ => rfl⟩
  · exact ⟨hA.1, hA.2, row3_keepable⟩
  · exact hA
  · exact ⟨rfl, hA⟩
  · exact rfl

end Verif.Props
