import Verif.Lemmas.CompHeap
import Verif.Props.Composition
/-! # C135: Compositions that share what they are made from -/
namespace Verif.Props
open Verif Verif.Model Verif.Lemmas Verif.Spec

variable {V X ι : Type}

/-- C135, in full: what is done with one Composition does not change another, whatever they were made from -/
def C135_full : Prop :=
  ∀ (V X : Type) [PyNone V] (h : CHeap V X) (s1 s2 : ObjArg (Step V X)) (b1 b2 i1 i2 : ObjArg Nat) (op : COp V X)
    (w : World V X),
    let m1 := makeComp h s1 b1 i1 none false
    let m2 := makeComp m1.2 s2 b2 i2 none false
    (objOp op m1.1 m2.2 w).2.2.1.view m2.1 = m2.2.view m2.1

private theorem objOp_became [DecidableEq ι] [PyNone V] {h : CHeap V X} {os : ι → CObj V X} (hu : Unshared h os) (i : ι)
    (op : COp V X) (w : World V X) : ∃ r o' h' c' w', objOp op (os i) h w = (r, o', h', w') ∧
      compOp op (h.view (os i)) w = (r, c', w') ∧ Became h h' os (fun j => if j = i then o' else os j) i c' := by
  have hsame : (fun j => if j = i then os i else os j) = os := by
    funext j
    by_cases hj : j = i
    · rw [if_pos hj, hj]
    · rw [if_neg hj]
  cases op with
  | addStep s n => exact ⟨_, _, _, _, _, rfl, rfl, by rw [hsame]; exact addStepH_became hu i s n⟩
  | addSend n sd =>
    simp only [objOp, compOp]
    rcases addSendH_became hu i n sd with ⟨e, h1, h2⟩ | ⟨h', c', h1, h2, h3⟩
    · rw [h1, h2]
      exact ⟨_, _, _, _, _, rfl, rfl, by rw [hsame]; exact Became.refl hu i⟩
    · rw [h1, h2]
      exact ⟨_, _, _, _, _, rfl, rfl, by rw [hsame]; exact h3⟩
  | addInsert n k v => exact ⟨_, _, _, _, _, rfl, rfl, by rw [hsame]; exact addInsertH_became hu i n k v⟩
  | reindex => exact ⟨_, _, _, _, _, rfl, rfl, reindexH_became hu i⟩
  | run v =>
    obtain ⟨r, h', c', w', e1, e2, b⟩ := executeH_became hu i v w
    simp only [objOp, compOp, e1]
    exact ⟨_, _, _, _, _, rfl, e2, by rw [hsame]; exact b⟩

/-- C135: Compositions that share no mappings, lists of sends and dicts of inserts are independent: in any history of
operations on them, in any order, each does and gives what it would if it were a value of its own, and they go on sharing
nothing -/
theorem C135_independent_partial [DecidableEq ι] [PyNone V] {h : CHeap V X} {os : ι → CObj V X} (hu : Unshared h os)
    (ops : List (ι × COp V X)) (w : World V X) :
    let r := objectsRun os h ops w
    let r' := valuesRun (fun i => h.view (os i)) ops w
    r.1 = r'.1 ∧ r.2.2.2 = r'.2.2 ∧ (∀ i, r.2.2.1.view (r.2.1 i) = r'.2.1 i) ∧ Unshared r.2.2.1 r.2.1 := by
  induction ops generalizing h os w with
  | nil => exact ⟨rfl, rfl, fun _ => rfl, hu⟩
  | cons x t ih =>
    obtain ⟨i, op⟩ := x
    obtain ⟨r, o', h', c', w', e1, e2, b⟩ := objOp_became hu i op w
    have hv : (fun j => h'.view (if j = i then o' else os j)) = fun j => if j = i then c' else h.view (os j) := by
      funext j
      by_cases hj : j = i
      · have := b.view
        simp only [if_true] at this
        rw [if_pos hj, if_pos hj, this]
      · have := b.frame j hj
        simp only [if_neg hj] at this
        rw [if_neg hj, if_neg hj, this]
    have := ih b.unshared w'
    simp only [objectsRun, valuesRun, e1, e2]
    rw [hv] at this
    obtain ⟨h1, h2, h3, h4⟩ := this
    exact ⟨by simp only [h1], h2, h3, h4⟩

/-- the objects of Compositions, with one more -/
def withNew (os : ι → CObj V X) (o : CObj V X) : Option ι → CObj V X
  | none => o
  | some i => os i

private theorem sep_alloc {A : Type} {H : Boxes A} {ds : ι → Nat} (hs : Sep H ds) :
    Sep (H.alloc []).2 (fun x : Option ι => match x with | none => (H.alloc []).1 | some i => ds i) := by
  have hlt : ∀ i, ds i ≠ H.nextDict := fun i he => by have := (hs.owned i).lt; omega
  refine ⟨?_, ?_, ?_⟩
  · rintro (_ | i)
    · exact ⟨by simp [Boxes.alloc], by simp [Boxes.alloc, Dict.values], by simp [Boxes.alloc, Dict.values]⟩
    · have := hs.owned i
      refine ⟨?_, ?_, ?_⟩
      · have := this.lt
        simp only [Boxes.alloc]; omega
      · simp only [Boxes.alloc, if_neg (hlt i)]; exact this.nodup
      · simp only [Boxes.alloc, if_neg (hlt i)]; exact this.boxes
  · rintro (_ | i) (_ | j) hij
    · exact absurd rfl hij
    · exact Ne.symm (hlt j)
    · exact hlt i
    · exact hs.ne i j fun e => hij (by rw [e])
  · rintro (_ | i) (_ | j) hij b hb hb'
    · exact hij rfl
    · simp [Boxes.alloc, Dict.values] at hb
    · simp [Boxes.alloc, Dict.values] at hb'
    · simp only [Boxes.alloc, if_neg (hlt i), if_neg (hlt j)] at hb hb'
      exact hs.disj i j (fun e => hij (by rw [e])) b hb hb'

private theorem frame_alloc {A : Type} {H : Boxes A} {d : Nat} (ho : Owned H d) : (H.alloc []).2.view d = H.view d := by
  have : d ≠ H.nextDict := fun he => by have := ho.lt; omega
  simp [Boxes.view, Boxes.alloc, this]

/-- a sequence of steps, or none -/
def stepsSeq : Option (List (Step V X)) → ObjArg (Step V X)
  | some l => .sequence l
  | none => .none

/-- the same as an argument of the Composition as a value -/
def stepsVal : Option (List (Step V X)) → SeqOrMap Name (Step V X)
  | some l => .iterable l
  | none => .none

/-- C135: a Composition made from a sequence of steps (or none), without sends and inserts, is the one `compInit` describes; it
shares nothing with the others, and making it does not change them -/
theorem C135_made_partial [PyNone V] {h : CHeap V X} {os : ι → CObj V X} (hu : Unshared h os) (steps : Option (List (Step V X)))
    (tracker : Option (TrackRec → Act V X Unit)) (optional : Bool) :
    let m := makeComp h (stepsSeq steps) .none .none tracker optional
    m.2.view m.1 = compInit (stepsVal steps) [] [] tracker optional ∧ Unshared m.2 (withNew os m.1) ∧
      ∀ i, m.2.view (os i) = h.view (os i) := by
  -- the Composition before its tracker's sends are added
  have htake : takeSteps h (stepsSeq steps) = (h.nextSteps, { h with
      steps := fun i => if i = h.nextSteps then enumerateAsMapping (fun n => Name.int n) (stepsOrIdentity 0 (stepsVal steps))
        else h.steps i
      nextSteps := h.nextSteps + 1 }) := by cases steps <;> rfl
  have hlt : ∀ i, (os i).steps ≠ h.nextSteps := fun i he => by have := hu.steps_lt i; omega
  intro m
  let o : CObj V X := ⟨h.nextSteps, (h.sends.alloc []).1, (h.inserts.alloc []).1, tracker, optional⟩
  let h' : CHeap V X :=
    { steps := fun i => if i = h.nextSteps then enumerateAsMapping (fun n => Name.int n) (stepsOrIdentity 0 (stepsVal steps))
        else h.steps i
      nextSteps := h.nextSteps + 1, sends := (h.sends.alloc []).2, inserts := (h.inserts.alloc []).2 }
  have hm : m = (o, addTrackSendsH h' o (h'.steps o.steps)) := by
    show makeComp h (stepsSeq steps) .none .none tracker optional = _
    unfold makeComp
    rw [htake]
    rfl
  have hu' : Unshared h' (withNew os o) := by
    refine ⟨?_, ?_, ?_, ?_⟩
    · rintro (_ | i)
      · exact Nat.lt_succ_self _
      · exact Nat.lt_succ_of_lt (hu.steps_lt i)
    · rintro (_ | i) (_ | j) hij
      · exact absurd rfl hij
      · exact Ne.symm (hlt j)
      · exact hlt i
      · exact hu.steps_ne i j fun e => hij (by rw [e])
    · have := sep_alloc hu.sends
      rw [show (fun i => (withNew os o i).sends) = fun x : Option ι => match x with
        | none => (h.sends.alloc []).1 | some i => (os i).sends by funext x; cases x <;> rfl]
      exact this
    · have := sep_alloc hu.inserts
      rw [show (fun i => (withNew os o i).inserts) = fun x : Option ι => match x with
        | none => (h.inserts.alloc []).1 | some i => (os i).inserts by funext x; cases x <;> rfl]
      exact this
  have hb := addTrackSendsH_became hu' none (h'.steps o.steps)
  have hv : h'.view o = ⟨enumerateAsMapping (fun n => Name.int n) (stepsOrIdentity 0 (stepsVal steps)), [], [], tracker, optional,
      none⟩ := by
    simp [CHeap.view, h', o, Boxes.view, Boxes.alloc]
  rw [hm]
  refine ⟨?_, hb.unshared, fun i => ?_⟩
  · have := hb.view
    simp only [withNew] at this
    rw [this, hv]
    simp only [compInit]
    rw [show h'.steps o.steps = enumerateAsMapping (fun n => Name.int n) (stepsOrIdentity 0 (stepsVal steps)) by simp [h', o]]
  · have h1 := hb.frame (some i) (by simp)
    simp only [withNew] at h1
    simp only
    rw [h1]
    have e1 : h'.sends.view (os i).sends = h.sends.view (os i).sends := frame_alloc (hu.sends.owned i)
    have e2 : h'.inserts.view (os i).inserts = h.inserts.view (os i).inserts := frame_alloc (hu.inserts.owned i)
    simp only [CHeap.view]
    rw [e1, e2]
    simp [h', hlt i]

/-- C135: a Composition made from a mapping of steps has that mapping: steps added to the Composition are added to it -/
theorem C135_mapping_shared [PyNone V] (h : CHeap V X) (id : Nat) (sends inserts : ObjArg Nat) (optional : Bool) (s : Step V X)
    (n : Name) (w : World V X) :
    let m := makeComp h (.mapping id) sends inserts none optional
    (objOp (.addStep s (some n)) m.1 m.2 w).2.2.1.steps id = (h.steps id).set n s := by
  have h2 : ∀ (g : CHeap V X) (o : CObj V X) (l : Dict Name (Step V X)), o.tracker = none → addTrackSendsH g o l = g := by
    intro g o l ht
    induction l generalizing g with
    | nil => rfl
    | cons p t ih => simp only [addTrackSendsH, addTrackSendH, ht, ih]
  simp only [makeComp, takeSteps]
  rw [h2 _ _ _ rfl]
  simp [objOp, addStepH, addTrackSendH]

private theorem untracked_sends [PyNone V] (g : CHeap V X) (o : CObj V X) (l : Dict Name (Step V X)) (ht : o.tracker = none) :
    addTrackSendsH g o l = g := by
  induction l generalizing g with
  | nil => rfl
  | cons p t ih => simp only [addTrackSendsH, addTrackSendH, ht, ih]

private theorem get?_mapBox {A : Type} (box : Nat → A) (n : Name) : ∀ d : Dict Name Nat,
    Dict.get? (d.map fun p => (p.1, box p.2)) n = (d.get? n).map box
  | [] => rfl
  | (k, b) :: t => by
    have ih := get?_mapBox box n t
    by_cases hk : k = n
    · subst hk; simp [Dict.get?]
    · simp only [List.map_cons, Dict.get?, hk, if_false]
      exact ih

private theorem touch_view {A : Type} (init : A) (g : A → A) (H : Boxes A) (d : Nat) (n : Name) :
    ((H.touch init g d n).view d).get? n = some (g (((H.view d).get? n).getD init)) := by
  simp only [Boxes.view, get?_mapBox]
  unfold Boxes.touch
  cases hb : (H.dicts d).get? n with
  | some b => simp [hb]
  | none => simp [Dict.get?_set_self]

/-- C135: a Composition made from a mapping of sends or inserts has that mapping: what is added to the Composition, the mapping
shows -/
theorem C135_given_mapping [PyNone V] (h : CHeap V X) (steps : ObjArg (Step V X)) (sid iid : Nat) (optional : Bool) (w : World V X)
    (n : Name) :
    let m := makeComp h steps (.mapping sid) (.mapping iid) none optional
    (m.2.sends = h.sends ∧ m.2.inserts = h.inserts) ∧
    (∀ sd, (sd.target.isNone && sd.pipe.isNone) = false →
      ((objOp (.addSend n sd) m.1 m.2 w).2.2.1.sends.view sid).get? n = some (((h.sends.view sid).get? n).getD [] ++ [sd])) ∧
    ∀ k v, ((objOp (.addInsert n k v) m.1 m.2 w).2.2.1.inserts.view iid).get? n =
      some ((((h.inserts.view iid).get? n).getD []).set k v) := by
  have hs : (takeSteps h steps).2.sends = h.sends ∧ (takeSteps h steps).2.inserts = h.inserts := by
    cases steps <;> exact ⟨rfl, rfl⟩
  simp only [makeComp, Boxes.take]
  rw [untracked_sends _ _ _ rfl]
  refine ⟨hs, fun sd hsd => ?_, fun k v => ?_⟩
  · simp only [objOp, addSendH, hsd]
    rw [if_neg (by decide)]
    simp only [hs.1]
    exact touch_view _ _ _ _ _
  · simp only [objOp, addInsertH, hs.2]
    exact touch_view _ _ _ _ _

/-- C135: the lists of sends and the dicts of inserts in a sequence are those of the steps 0, 1, 2, ...; they are the objects
given, not copies -/
theorem C135_given_sequence [PyNone V] (h : CHeap V X) (steps : ObjArg (Step V X)) (ss is : List Nat) (optional : Bool) :
    let m := makeComp h steps (.sequence ss) (.sequence is) none optional
    (m.2.view m.1).sends = ss.zipIdx.map (fun x => (.int x.2, h.sends.box x.1)) ∧
    (m.2.view m.1).inserts = is.zipIdx.map (fun x => (.int x.2, h.inserts.box x.1)) ∧
    m.2.sends.dicts m.1.sends = ss.zipIdx.map (fun x => (.int x.2, x.1)) ∧
    m.2.inserts.dicts m.1.inserts = is.zipIdx.map (fun x => (.int x.2, x.1)) := by
  have hs : (takeSteps h steps).2.sends = h.sends ∧ (takeSteps h steps).2.inserts = h.inserts := by
    cases steps <;> exact ⟨rfl, rfl⟩
  simp only [makeComp, Boxes.take]
  rw [untracked_sends _ _ _ rfl]
  simp only [CHeap.view, Boxes.view, Boxes.alloc, hs.1, hs.2, if_true, List.map_map]
  exact ⟨rfl, rfl, trivial, trivial⟩

/-! ## Examples -/

/-- no objects yet, but a mapping of steps and one of inserts: a step that writes its arguments as digits, with 4 in front -/
def heapZero : CHeap Int Unit where
  steps := fun i => if i = 0 then [(.str "s".toList, digitStep)] else []
  nextSteps := 1
  sends := ⟨fun _ => [], fun _ => [], 0, 0⟩
  inserts := ⟨fun i => if i = 0 then [(.str "s".toList, 0)] else [], fun i => if i = 0 then [(.int 0, 4)] else [], 1, 1⟩

/-- two Compositions from sequences -/
def heapA : CObj Int Unit × CHeap Int Unit := makeComp heapZero (.sequence [digitStep, addTwo]) .none .none none false
def heapB : CObj Int Unit × CHeap Int Unit := makeComp heapA.2 (.sequence [timesThree]) .none .none none false

def twoComps : Option (Option Empty) → CObj Int Unit := withNew (withNew (fun e => nomatch e) heapA.1) heapB.1

private theorem none_unshared (h : CHeap Int Unit) : Unshared h (fun e : Empty => nomatch e) := by
  refine ⟨?_, ?_, ⟨?_, ?_, ?_⟩, ⟨?_, ?_, ?_⟩⟩ <;> exact fun e => nomatch e

theorem two_unshared : Unshared heapB.2 twoComps :=
  (C135_made_partial (C135_made_partial (none_unshared heapZero) (some [digitStep, addTwo]) none false).2.1
    (some [timesThree]) none false).2.1

/-- an insert for the first does not show in the second, nor do the sends of its runs -/
def twoOps : List (Option (Option Empty) × COp Int Unit) :=
  [(some none, .addInsert (.int 0) (.int 0) 4), (some none, .addSend (.int 1) ⟨none, some (.stepInt 0), .int 1⟩),
    (some none, .run 5), (none, .run 5), (none, .addStep digitStep none), (some none, .run 5), (none, .run 5)]

example : (objectsRun twoComps heapB.2 twoOps w0).1 = (valuesRun (fun i => heapB.2.view (twoComps i)) twoOps w0).1 :=
  (C135_independent_partial two_unshared twoOps w0).1

example : (objectsRun twoComps heapB.2 twoOps w0).1 =
    [.ok (-1), .ok (-1), .ok 47, .ok 15, .ok (-1), .ok 877, .ok 15] := by rfl

/-- two Compositions with the same mapping of inserts; the first sends its output to its own step -/
def leakA : CObj Int Unit × CHeap Int Unit := makeComp heapZero (.mapping 0) .none (.mapping 0) none false
def leakB : CObj Int Unit × CHeap Int Unit := makeComp leakA.2 (.mapping 0) .none (.mapping 0) none false

def leakOps (b : Bool) : List (Bool × COp Int Unit) :=
  [(false, .addSend (.str "s".toList) ⟨none, some (.stepStr "s".toList), .int 1⟩)] ++
    (if b then [(false, .run 5)] else []) ++ [(true, .run 5)]

/-- C135: a run of the one changes what the other gives, if they were made from the same mapping of inserts -/
theorem C135_run_leaks : (objectsRun (fun b => if b then leakB.1 else leakA.1) leakB.2 (leakOps false) w0).1.getLast? = some (.ok 45) ∧
    (objectsRun (fun b => if b then leakB.1 else leakA.1) leakB.2 (leakOps true) w0).1.getLast? = some (.ok 855) := ⟨rfl, rfl⟩

example : ((objOp (.addStep addTwo (some (.int 7))) leakA.1 leakA.2 w0).2.2.1.steps 0).length = 2 := by
  have := C135_mapping_shared heapZero 0 .none (.mapping 0) false addTwo (.int 7) w0
  rw [show (objOp (.addStep addTwo (some (.int 7))) leakA.1 leakA.2 w0).2.2.1.steps 0 = _ from this]
  rfl

/-- one list of sends and two dicts of inserts, for steps 0 and 0, 1 -/
example : let m := makeComp heapZero (.mapping 0) (.sequence [0]) (.sequence [0, 0]) none false
    (m.2.view m.1).inserts = [(.int 0, heapZero.inserts.box 0), (.int 1, heapZero.inserts.box 0)] :=
  (C135_given_sequence heapZero (.mapping 0) [0] [0, 0] false).2.1

example : ((objOp (.addInsert (.str "s".toList) (.int 1) 8) (makeComp heapZero (.mapping 0) (.mapping 0) (.mapping 0) none false).1
    (makeComp heapZero (.mapping 0) (.mapping 0) (.mapping 0) none false).2 w0).2.2.1.inserts.view 0).get? (.str "s".toList) =
    some [(.int 0, 4), (.int 1, 8)] := by
  rw [(C135_given_mapping heapZero (.mapping 0) 0 0 false w0 (.str "s".toList)).2.2 (.int 1) 8]
  rfl

/-- C135: false: an insert for one of two Compositions made from the same mapping of inserts is one for both -/
theorem C135_full_false : ¬ C135_full := by
  intro h
  have := h Int Unit heapZero (.mapping 0) (.mapping 0) .none .none (.mapping 0) (.mapping 0)
    (.addInsert (.str "s".toList) (.int 1) 8) w0
  have h1 : ((objOp (.addInsert (.str "s".toList) (.int 1) 8) leakA.1 leakB.2 w0).2.2.1.view leakB.1).inserts =
    [(.str "s".toList, [(.int 0, 4), (.int 1, 8)])] := by rfl
  have h2 : (leakB.2.view leakB.1).inserts = [(.str "s".toList, [(.int 0, 4)])] := by rfl
  have h3 := congrArg Comp.inserts this
  have h4 : [(Name.str "s".toList, [(Name.int 0, (4 : Int)), (.int 1, 8)])] = [(.str "s".toList, [(.int 0, 4)])] :=
    h1.symm.trans (h3.trans h2)
  exact absurd h4 (by decide)

end Verif.Props
