import Verif.Model.SigChanges
import Verif.Lemmas.Tac
import Mathlib.Data.List.Basic
/-
C98: key and time signature changes reach the measures of their staves.
-/
namespace C21

/-! ### Specification -/

/-- The tokens of staff `s` in the interpretation lines of the measure, in order. -/
def staffToks (lines : List SigLine) (s : Nat) : List SigTok :=
  ((lines.filter fun l => l.isInterp).flatMap fun l => l.toks).filter fun t => t.staff == (s : Int)

def isTimeTok (t : SigTok) : Bool := match t.kind with | .time _ => true | _ => false
def isKeyTok (t : SigTok) : Bool := match t.kind with | .key _ => true | _ => false
def metSymbol (t : SigTok) : Option Str := match t.kind with | .met m => some m | _ => none
def keyName (t : SigTok) : Option Str := match t.kind with | .desig d => some d | _ => none

/-- The symbol given last, if any. -/
def lastMet (ts : List SigTok) : Option Str := (ts.filterMap metSymbol).getLast?
/-- The key name given last, if any. -/
def lastName (ts : List SigTok) : Option Str := (ts.filterMap keyName).getLast?

/-! ### Proofs -/

def sigStart : SigAcc := ⟨fun _ => none, fun _ => none, fun _ => none, fun _ => none, -1⟩

theorem sigScan_eq (lines : List SigLine) :
    sigScan lines =
      ((lines.filter fun l => l.isInterp).flatMap fun l => l.toks).foldl sigTokStep sigStart := rfl

/-- A token of another staff changes nothing for `s`. -/
theorem sigTokStep_other (acc : SigAcc) (t : SigTok) (s : Nat) (h : t.staff ≠ (s : Int)) :
    (sigTokStep acc t).time s = acc.time s ∧ (sigTokStep acc t).key s = acc.key s ∧
      (sigTokStep acc t).desig s = acc.desig s ∧ (sigTokStep acc t).met s = acc.met s := by
  unfold sigTokStep
  by_cases hn : t.staff < 0
  · simp only [hn, if_true, and_self]
  · have hi : s ≠ t.staff.toNat := by omega
    simp only [hn, if_false]
    cases t.kind with
    | met m =>
      by_cases hm : (acc.time t.staff.toNat).isSome = true
      · simp [setStaffAt, hi, hm]
      · simp [hm]
    | _ => simp [setStaffAt, hi]

/-- The four entries of one staff. -/
structure StaffSig where
  time : Option (Str × Rat)
  key : Option (Str × Rat)
  desig : Option Str
  met : Option Str
deriving DecidableEq

/-- One token seen by its own staff. -/
def staffSigStep (x : StaffSig) (t : SigTok) : StaffSig :=
  match t.kind with
  | .time r => { x with time := some (r, t.off) }
  | .key k => { x with key := some (k, t.off) }
  | .desig d => { x with desig := some d }
  | .met m => if x.time.isSome then { x with met := some m } else x
  | .other => x

def staffSig (acc : SigAcc) (s : Nat) : StaffSig := ⟨acc.time s, acc.key s, acc.desig s, acc.met s⟩

theorem staffSig_step (acc : SigAcc) (t : SigTok) (s : Nat) (h : t.staff = (s : Int)) :
    staffSig (sigTokStep acc t) s = staffSigStep (staffSig acc s) t := by
  have hn : ¬ t.staff < 0 := by omega
  have hi : t.staff.toNat = s := by omega
  unfold sigTokStep staffSigStep staffSig
  simp only [hn, if_false, hi]
  cases t.kind with
  | met m =>
    by_cases hm : (acc.time s).isSome = true
    · simp [setStaffAt, hm]
    · simp [hm]
  | _ => simp [setStaffAt]

theorem staffSig_fold (ts : List SigTok) (acc : SigAcc) (s : Nat) :
    staffSig (ts.foldl sigTokStep acc) s =
      (ts.filter fun t => t.staff == (s : Int)).foldl staffSigStep (staffSig acc s) := by
  induction ts generalizing acc with
  | nil => rfl
  | cons t ts ih =>
    rw [List.foldl_cons, ih]
    by_cases h : t.staff = (s : Int)
    · rw [List.filter_cons_of_pos (by simp [h]), List.foldl_cons, staffSig_step acc t s h]
    · rw [List.filter_cons_of_neg (by simp [h])]
      obtain ⟨h1, h2, h3, h4⟩ := sigTokStep_other acc t s h
      simp only [staffSig, h1, h2, h3, h4]

theorem staffSig_scan (lines : List SigLine) (s : Nat) :
    staffSig (sigScan lines) s = (staffToks lines s).foldl staffSigStep ⟨none, none, none, none⟩ := by
  rw [sigScan_eq, staffSig_fold]
  rfl

theorem fold_time_none (ts : List SigTok) (x : StaffSig) (h : ∀ t ∈ ts, isTimeTok t = false) :
    (ts.foldl staffSigStep x).time = x.time := by
  induction ts generalizing x with
  | nil => rfl
  | cons t ts ih =>
    rw [List.foldl_cons, ih _ fun u hu => h u (by simp [hu])]
    have := h t List.mem_cons_self
    unfold isTimeTok at this
    unfold staffSigStep
    cases hk : t.kind with
    | time r => rw [hk] at this; simp at this
    | met m => by_cases hm : x.time.isSome = true <;> simp [hm]
    | _ => rfl

theorem fold_key_none (ts : List SigTok) (x : StaffSig) (h : ∀ t ∈ ts, isKeyTok t = false) :
    (ts.foldl staffSigStep x).key = x.key := by
  induction ts generalizing x with
  | nil => rfl
  | cons t ts ih =>
    rw [List.foldl_cons, ih _ fun u hu => h u (by simp [hu])]
    have := h t List.mem_cons_self
    unfold isKeyTok at this
    unfold staffSigStep
    cases hk : t.kind with
    | key r => rw [hk] at this; simp at this
    | met m => by_cases hm : x.time.isSome = true <;> simp [hm]
    | _ => rfl

theorem getLast_cons_or {α : Type} (a : α) (l : List α) :
    (a :: l).getLast? = (l.getLast?).or (some a) := by
  cases l with
  | nil => rfl
  | cons b l =>
    rw [List.getLast?_cons_cons]
    cases h : (b :: l).getLast? with
    | none => simp at h
    | some v => rfl

theorem fold_desig (ts : List SigTok) (x : StaffSig) :
    (ts.foldl staffSigStep x).desig = (lastName ts).or x.desig := by
  induction ts generalizing x with
  | nil => rfl
  | cons t ts ih =>
    rw [List.foldl_cons, ih]
    unfold lastName
    cases hk : t.kind with
    | desig d =>
      rw [List.filterMap_cons_some (show keyName t = some d by simp [keyName, hk]), getLast_cons_or]
      simp only [staffSigStep, hk]
      cases (ts.filterMap keyName).getLast? <;> rfl
    | met m =>
      rw [List.filterMap_cons_none (show keyName t = none by simp [keyName, hk])]
      by_cases hm : x.time.isSome = true <;> simp [staffSigStep, hk, hm]
    | _ =>
      rw [List.filterMap_cons_none (show keyName t = none by simp [keyName, hk])]
      simp [staffSigStep, hk]

theorem fold_met (ts : List SigTok) (x : StaffSig) (h : x.time.isSome = true) :
    (ts.foldl staffSigStep x).met = (lastMet ts).or x.met := by
  induction ts generalizing x with
  | nil => rfl
  | cons t ts ih =>
    have hx : (staffSigStep x t).time.isSome = true := by
      unfold staffSigStep
      cases t.kind with
      | time r => rfl
      | met m => simp [h]
      | _ => exact h
    rw [List.foldl_cons, ih _ hx]
    unfold lastMet
    cases hk : t.kind with
    | met m =>
      rw [List.filterMap_cons_some (show metSymbol t = some m by simp [metSymbol, hk]), getLast_cons_or]
      simp only [staffSigStep, hk, h, if_true]
      cases (ts.filterMap metSymbol).getLast? <;> rfl
    | _ =>
      rw [List.filterMap_cons_none (show metSymbol t = none by simp [metSymbol, hk])]
      simp [staffSigStep, hk]

theorem fold_met_none (ts : List SigTok) (x : StaffSig) (h : x.time = none)
    (ht : ∀ t ∈ ts, isTimeTok t = false) : (ts.foldl staffSigStep x).met = x.met := by
  induction ts generalizing x with
  | nil => rfl
  | cons t ts ih =>
    have h1 := ht t List.mem_cons_self
    unfold isTimeTok at h1
    have hx : (staffSigStep x t).time = none ∧ (staffSigStep x t).met = x.met := by
      unfold staffSigStep
      cases hk : t.kind with
      | time r => rw [hk] at h1; simp at h1
      | met m => simp [h]
      | _ => exact ⟨h, rfl⟩
    rw [List.foldl_cons, ih _ hx.1 fun u hu => ht u (by simp [hu]), hx.2]

theorem staffSig_fields (lines : List SigLine) (s : Nat) :
    (sigScan lines).time s = (staffSig (sigScan lines) s).time ∧
    (sigScan lines).key s = (staffSig (sigScan lines) s).key ∧
    (sigScan lines).desig s = (staffSig (sigScan lines) s).desig ∧
    (sigScan lines).met s = (staffSig (sigScan lines) s).met := ⟨rfl, rfl, rfl, rfl⟩

variable {τ κ : Type} (mkTime : Str → Option Str → τ) (mkKey : Str → Option Str → Option κ)

/-- The objects of `sigInserted` that are time signatures. -/
def timeObjs (xs : List (Rat × SigObj τ κ)) : List (Rat × τ) :=
  xs.filterMap fun x => match x.2 with | .timeSig t => some (x.1, t) | .keySig _ => none

/-- The objects that are key signatures. -/
def keyObjs (xs : List (Rat × SigObj τ κ)) : List (Rat × κ) :=
  xs.filterMap fun x => match x.2 with | .keySig k => some (x.1, k) | .timeSig _ => none

theorem timeObjs_inserted (lines : List SigLine) (s : Nat) :
    timeObjs (sigInserted mkTime mkKey lines s) =
      match (sigScan lines).time s with
      | some (r, o) => [(o, mkTime r ((sigScan lines).met s))]
      | none => [] := by
  unfold sigInserted sigTimeObjs
  cases h1 : (sigScan lines).time s with
  | none =>
    cases h2 : sigKeyOf mkKey (sigScan lines) s with
    | none => simp [h1, h2, timeObjs]
    | some v => simp [h1, h2, timeObjs]
  | some w =>
    cases h2 : sigKeyOf mkKey (sigScan lines) s with
    | none => simp [h1, h2, timeObjs]
    | some v => simp [h1, h2, timeObjs]

theorem keyObjs_inserted (lines : List SigLine) (s : Nat) :
    keyObjs (sigInserted mkTime mkKey lines s) = (sigKeyOf mkKey (sigScan lines) s).toList := by
  unfold sigInserted sigTimeObjs
  cases h1 : (sigScan lines).time s with
  | none =>
    cases h2 : sigKeyOf mkKey (sigScan lines) s with
    | none => simp [h1, h2, keyObjs]
    | some v => simp [h1, h2, keyObjs]
  | some w =>
    cases h2 : sigKeyOf mkKey (sigScan lines) s with
    | none => simp [h1, h2, keyObjs]
    | some v => simp [h1, h2, keyObjs]

/-- **C98 (restricted)** A time signature of a staff, the last one in the measure, is put into that
staff's measure at its place, with the mensuration symbol that follows it; no other time signature is
put there. It must be the only one of its measure and staff (see `earlier_signature_lost`). -/
theorem time_signature_inserted_partial (lines : List SigLine) (s : Nat) (a b : List SigTok)
    (r : Str) (o : Rat) (h : staffToks lines s = a ++ ⟨s, o, .time r⟩ :: b)
    (ha : ∀ t ∈ a, isTimeTok t = false) (hb : ∀ t ∈ b, isTimeTok t = false) :
    timeObjs (sigInserted mkTime mkKey lines s) = [(o, mkTime r (lastMet b))] := by
  rw [timeObjs_inserted]
  obtain ⟨e1, _, _, e4⟩ := staffSig_fields lines s
  rw [e1, e4, staffSig_scan, h, List.foldl_append, List.foldl_cons, fold_time_none b _ hb,
    fold_met b _ rfl]
  have hm := fold_met_none a ⟨none, none, none, none⟩ rfl ha
  show [(o, mkTime r ((lastMet b).or (a.foldl staffSigStep ⟨none, none, none, none⟩).met))] = _
  rw [hm]
  simp

/-- Without a time signature token the staff's measure gets no time signature. -/
theorem no_time_signature_inserted (lines : List SigLine) (s : Nat)
    (h : ∀ t ∈ staffToks lines s, isTimeTok t = false) :
    timeObjs (sigInserted mkTime mkKey lines s) = [] := by
  rw [timeObjs_inserted, (staffSig_fields lines s).1, staffSig_scan, fold_time_none _ _ h]

/-- **C98 (restricted)** The same for key signatures; a key name (before or after it) goes with it. -/
theorem key_signature_inserted_partial (lines : List SigLine) (s : Nat) (a b : List SigTok)
    (k : Str) (o : Rat) (h : staffToks lines s = a ++ ⟨s, o, .key k⟩ :: b)
    (hb : ∀ t ∈ b, isKeyTok t = false) :
    keyObjs (sigInserted mkTime mkKey lines s) =
      ((mkKey k (lastName (staffToks lines s))).map fun v => (o, v)).toList := by
  rw [keyObjs_inserted]
  unfold sigKeyOf
  obtain ⟨_, e2, e3, _⟩ := staffSig_fields lines s
  rw [e2, e3, staffSig_scan, fold_desig, h, List.foldl_append, List.foldl_cons, fold_key_none b _ hb]
  simp [staffSigStep]

theorem no_key_signature_inserted (lines : List SigLine) (s : Nat)
    (h : ∀ t ∈ staffToks lines s, isKeyTok t = false) :
    keyObjs (sigInserted mkTime mkKey lines s) = [] := by
  rw [keyObjs_inserted]
  unfold sigKeyOf
  rw [(staffSig_fields lines s).2.1, staffSig_scan, fold_key_none _ _ h]
  rfl

/-! #### The key a staff remembers -/

theorem pySetIdx_length {α : Type} (xs : List α) (i : Int) (v : α) :
    (pySetIdx xs i v).length = xs.length := by
  unfold pySetIdx
  split <;> simp

/-- Every assignment goes to one and the same staff. -/
theorem assign_elsewhere (acc : SigAcc) (ss : List Nat) (cur : List (Option κ)) (j : Nat)
    (hj : ∀ v : Option κ, ∀ xs : List (Option κ), xs.length = cur.length →
      (pySetIdx xs acc.staffIndex v)[j]? = xs[j]?) :
    (ss.foldl (sigKeyAssign mkKey acc) cur)[j]? = cur[j]? := by
  induction ss generalizing cur with
  | nil => rfl
  | cons s ss ih =>
    rw [List.foldl_cons]
    have h1 : (sigKeyAssign mkKey acc cur s).length = cur.length := by
      unfold sigKeyAssign
      cases sigKeyOf mkKey acc s with
      | none => rfl
      | some v => exact pySetIdx_length _ _ _
    rw [ih _ (by intro v xs hx; exact hj v xs (by rw [hx, h1]))]
    unfold sigKeyAssign
    cases sigKeyOf mkKey acc s with
    | none => rfl
    | some v => exact hj _ _ rfl

theorem sigTokStep_staffIndex (acc : SigAcc) (t : SigTok) :
    (sigTokStep acc t).staffIndex = t.staff := by
  unfold sigTokStep
  by_cases hn : t.staff < 0
  · simp [hn]
  · simp only [hn, if_false]
    cases t.kind with
    | met m => by_cases hm : (acc.time t.staff.toNat).isSome = true <;> simp [hm]
    | _ => rfl

/-- The staff index left over from the last token of the measure. -/
theorem last_staffIndex (lines : List SigLine) (front : List SigTok) (t : SigTok)
    (h : ((lines.filter fun l => l.isInterp).flatMap fun l => l.toks) = front ++ [t]) :
    (sigScan lines).staffIndex = t.staff := by
  rw [sigScan_eq, h, List.foldl_append]
  exact sigTokStep_staffIndex _ t

/-- The new keys of a measure are remembered by no other staff than the one whose token is the last of
the measure's interpretation tokens: every other staff keeps its old key, whatever its key signature. -/
theorem key_change_not_remembered (lines : List SigLine) (front : List SigTok) (t : SigTok)
    (h : ((lines.filter fun l => l.isInterp).flatMap fun l => l.toks) = front ++ [t])
    (cur : List (Option κ)) (j : Nat) (hj : (j : Int) ≠ t.staff) (h0 : 0 ≤ t.staff) :
    (sigCurrentKeys mkKey lines cur)[j]? = cur[j]? := by
  unfold sigCurrentKeys
  apply assign_elsewhere
  intro v xs _
  rw [last_staffIndex lines front t h]
  unfold pySetIdx
  rw [if_neg (by omega), List.getElem?_set_ne (by omega)]

/-- In a score with one staff the new key is remembered. -/
theorem one_staff_key_remembered (lines : List SigLine) (old : Option κ) (a b : List SigTok)
    (hstaff : ∀ t ∈ (lines.filter fun l => l.isInterp).flatMap fun l => l.toks,
      t.staff = 0 ∨ t.staff = -1)
    (k : Str) (o : Rat) (h : staffToks lines 0 = a ++ ⟨0, o, .key k⟩ :: b)
    (hb : ∀ t ∈ b, isKeyTok t = false) (v : κ) (hv : mkKey k (lastName (staffToks lines 0)) = some v) :
    sigCurrentKeys mkKey lines [old] = [some v] := by
  have hk : sigKeyOf mkKey (sigScan lines) 0 = some (o, v) := by
    have := key_signature_inserted_partial (τ := Unit) (fun _ _ => ()) mkKey lines 0 a b k o h hb
    rw [keyObjs_inserted, hv] at this
    cases hs : sigKeyOf mkKey (sigScan lines) 0 with
    | none => rw [hs] at this; simp at this
    | some w => rw [hs] at this; simpa using this
  have hidx : (sigScan lines).staffIndex = 0 ∨ (sigScan lines).staffIndex = -1 := by
    set ts := (lines.filter fun l => l.isInterp).flatMap fun l => l.toks with hts
    rcases List.eq_nil_or_concat ts with he | ⟨front, t, he⟩
    · rw [sigScan_eq, ← hts, he]; exact Or.inr rfl
    · rw [last_staffIndex lines front t (by rw [← hts, he, List.concat_eq_append])]
      exact hstaff t (by rw [he, List.concat_eq_append]; simp)
  show sigKeyAssign mkKey (sigScan lines) [old] 0 = [some v]
  unfold sigKeyAssign
  rw [hk]
  rcases hidx with hi | hi <;> (simp only [hi]; rfl)

/-! ### Witnesses -/

/-- Two staves; both change to two sharps. -/
def keyChangeC98 : List SigLine :=
  [⟨true, [⟨0, 0, .key "f#c#".toList⟩, ⟨1, 0, .key "f#c#".toList⟩]⟩,
   ⟨true, [⟨0, 0, .time "3/4".toList⟩, ⟨1, 0, .time "3/4".toList⟩]⟩,
   ⟨true, [⟨0, 0, .met "c".toList⟩, ⟨1, 0, .other⟩]⟩, ⟨false, []⟩]

example : staffToks keyChangeC98 0 =
      [⟨0, 0, .key "f#c#".toList⟩] ++ ⟨0, 0, .time "3/4".toList⟩ :: [⟨0, 0, .met "c".toList⟩] ∧
    sigInserted (fun r m => (r, m)) (fun k d => some (k, d)) keyChangeC98 0 =
      [(0, .timeSig ("3/4".toList, some "c".toList)), (0, .keySig ("f#c#".toList, none))] :=
  ⟨rfl, rfl⟩

/-- Only the second staff remembers its new key: ornaments of the first are resolved in the old one. -/
theorem first_staff_keeps_old_key :
    sigCurrentKeys (fun k _ => some k) keyChangeC98 [some "old".toList, some "old".toList] =
      [some "old".toList, some "f#c#".toList] := by decide +kernel

/-- When the measure's last interpretation is in a spine that is no staff (here one of dynamics), the key
of the first staff is remembered by the last staff. -/
theorem wrong_staff_remembers_key :
    sigCurrentKeys (fun k _ => some k)
      [⟨true, [⟨0, 0, .key "f#".toList⟩, ⟨1, 0, .other⟩, ⟨-1, 0, .other⟩]⟩] [none, none] =
      [none, some "f#".toList] := by decide +kernel

/-- Of two changes in one measure the first is lost. -/
theorem earlier_signature_lost :
    sigInserted (fun r _ => r) (fun k _ => some k)
      [⟨true, [⟨0, 0, .time "3/4".toList⟩]⟩, ⟨true, [⟨0, 2, .time "2/4".toList⟩]⟩] 0 =
      [(2, .timeSig "2/4".toList)] := rfl

/-- A key name without a key signature in the same measure is lost. -/
theorem lone_key_name_lost :
    sigInserted (fun r _ => r) (fun k _ => some k) [⟨true, [⟨0, 0, .desig "D".toList⟩]⟩] 0 = [] := rfl

/-- A mensuration symbol is only used after a time signature in the same measure. -/
theorem symbol_before_signature_lost :
    sigInserted (fun r m => (r, m)) (fun k _ => some k)
      [⟨true, [⟨0, 0, .met "c".toList⟩]⟩, ⟨true, [⟨0, 0, .time "4/4".toList⟩]⟩] 0 =
      [(0, .timeSig ("4/4".toList, none))] := rfl

end C21
