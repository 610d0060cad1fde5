import Verif.Lemmas.PickleKeys
import Verif.Props.Pickle
/-! # C136: which dict keys are one in a pickle -/
namespace Verif.Props
open Verif Verif.Model Verif.Spec

/-- **C136**: two things are one dict key when and only when Python has them equal: numbers by value whatever their types
(`True`, `1` and `1.0` are one key, `True` and `False` are two), strings, bytes and tuples by contents. So the condition
`HeapOK` puts on dicts is the one every Python dict meets. -/
theorem C136_keys (h : PHeap) (r s : PRef) (k l : List KeyTok) (hk : IsKey h r k) (hl : IsKey h s l) : k = l ↔ KeyEq h r s := by
  obtain ⟨n, hn⟩ := hk
  obtain ⟨m, hm⟩ := hl
  constructor
  · rintro rfl
    exact (Lemmas.Pickle.key_split n r s m k k [] [] hn hm rfl).1
  · exact fun he => Lemmas.Pickle.keyEq_sound he n m k l hn hm

/-- `{True: 1, False: 2, 2: 3, '1': 4, b'1': 5, (1,): 6, None: 7, 0.5: 8, (): 9}` -/
def keysHeap : PHeap :=
  [.dict [(.bool true, .int 1), (.bool false, .int 2), (.int 2, .int 3), (.obj 1, .int 4), (.obj 2, .int 5), (.obj 3, .int 6), (.none, .int 7),
     (.float 0x3FE0000000000000#64, .int 8), (.unit, .int 9)],
   .str [49], .bytes [49], .tuple [.int 1]]

theorem keysHeap_ok : HeapOK keysHeap := by
  intro a n hn
  match a with
  | 0 => cases hn; exact dict_ok 2 (by decide) (by decide)
  | 1 => cases hn; simp [NodeOK]
  | 2 => cases hn; simp [NodeOK]
  | 3 => cases hn; simp [NodeOK]
  | a + 4 => simp [keysHeap] at hn

/-- `True` and `1.0` are one key, and so are `(1,)` and `(True,)` -/
example : KeyEq [] (.bool true) (.float 0x3FF0000000000000#64) :=
  (C136_keys [] _ _ [.int 1] [.int 1] ⟨1, rfl⟩ ⟨1, by decide⟩).1 rfl

example : KeyEq [.tuple [.int 1], .tuple [.bool true]] (.obj 0) (.obj 1) :=
  (C136_keys _ _ _ [.tup 1, .int 1] [.tup 1, .int 1] ⟨2, rfl⟩ ⟨2, rfl⟩).1 rfl

example : ¬ KeyEq [] (.bool true) (.bool false) :=
  fun h => absurd ((C136_keys [] _ _ [.int 1] [.int 0] ⟨1, rfl⟩ ⟨1, rfl⟩).2 h) (by decide)

end Verif.Props
