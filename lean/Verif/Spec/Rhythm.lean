import Verif.Model.PyNum
/-
What rhythm analysis should compute, stated without the code's passes.
A time is known if it is not negative.
-/
namespace C21

/-- Times in order. -/
def NonDecreasing (l : List Rat) : Prop := l.Pairwise (· ≤ ·)

/-- The known times of a list with unknown (negative) entries. -/
def known (l : List Rat) : List Rat := l.filter (fun t => decide (0 ≤ t))

/-- The time a line should get: the first known time from it on, otherwise the last known one. -/
def filled (l : List Rat) (i : Nat) : Option Rat :=
  match known (l.drop i) with
  | t :: _ => some t
  | [] => (known l).getLast?

/-- Sum of the entries of `l` at the positions `a ≤ k < b`. -/
def sumBetween (l : List Rat) (a b : Nat) : Rat := ((l.take b).drop a).sum

/-- `a` is just after the last barline before line `i` (0 if there is none). -/
def MeasureStart (bars : List Bool) (i a : Nat) : Prop :=
  a ≤ i ∧ (a = 0 ∨ bars[a - 1]? = some true) ∧ ∀ k, a ≤ k → k < i → bars[k]? = some false

/-- `b` is the next barline after line `i` (the end of the file if there is none). -/
def MeasureEnd (bars : List Bool) (i b : Nat) : Prop :=
  i < b ∧ (b = bars.length ∨ bars[b]? = some true) ∧ ∀ k, i < k → k < b → bars[k]? = some false

/-- Tokens that can be reached from `starts` by links. -/
inductive Reach (next : Nat × Nat → List (Nat × Nat)) (starts : List (Nat × Nat)) : Nat × Nat → Prop where
  | start {t} : t ∈ starts → Reach next starts t
  | link {a b} : Reach next starts a → b ∈ next a → Reach next starts b

/-- A consistent timing of a file whose tokens have durations `dur` (negative: none) and are linked by `next`:
`arr` is the time at which a token is reached, `T` the time of a line. Following a link takes the duration of the
token; the line of a token with a duration, or of a `*-`, is at the token's time. -/
structure Timing (dur : Nat × Nat → Rat) (stop : Nat × Nat → Bool) (next : Nat × Nat → List (Nat × Nat))
    (starts : List (Nat × Nat)) (arr : Nat × Nat → Rat) (T : Nat → Rat) : Prop where
  begin : ∀ t ∈ starts, arr t = 0
  step : ∀ a, Reach next starts a → ∀ b ∈ next a, arr b = arr a + max 0 (dur a)
  line : ∀ t, Reach next starts t → (0 ≤ dur t ∨ stop t = true) → T t.1 = arr t
  nonneg : ∀ l, 0 ≤ T l

/-- Following first links from `t` leads, through lines without a known time, to `last` on a line with a known
time; the durations passed on the way add up to `d`. -/
inductive LeadsTo (dur : Nat × Nat → Rat) (next : Nat × Nat → List (Nat × Nat)) (start : Nat → Rat) :
    Nat × Nat → Rat → Nat × Nat → Prop where
  | here {t} : 0 ≤ start t.1 → LeadsTo dur next start t 0 t
  | later {t b bs d last} : start t.1 < 0 → next t = b :: bs → LeadsTo dur next start b d last →
      LeadsTo dur next start t (max 0 (dur t) + d) last

end C21
