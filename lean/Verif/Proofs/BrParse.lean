import Verif.Proofs.BrText
import Verif.Model.Chars

/-!
# A parser for Bristol files that is right about what it accepts

Used to establish `Text f text` for concrete texts by kernel evaluation.
-/

namespace CC.Bristol
open CC CC.Spec CC.Spec.Bristol

def num? (t : Str) : Option Nat := (parseUsize t).toOption

theorem num?_some {t : Str} {n : Nat} (h : num? t = some n) : Numeral t n := by
  unfold num? at h
  cases hp : parseUsize t with
  | error e => rw [hp] at h; cases h
  | ok m => rw [hp] at h; cases h; exact parseUsize_ok.mp hp

/-- `k` numbers -/
def nums? : Nat → List Str → Option (List Nat × List Str)
  | 0, ts => some ([], ts)
  | _ + 1, [] => none
  | k + 1, t :: ts =>
    match num? t, nums? k ts with
    | some n, some (ns, rest) => some (n :: ns, rest)
    | _, _ => none

theorem nums?_some : ∀ {k : Nat} {ts : List Str} {ns : List Nat} {rest : List Str}, nums? k ts = some (ns, rest) →
    ns.length = k ∧ ∃ as, ts = as ++ rest ∧ All2 Numeral as ns
  | 0, ts, ns, rest, h => by cases h; exact ⟨rfl, [], rfl, trivial⟩
  | k + 1, [], ns, rest, h => by cases h
  | k + 1, t :: ts, ns, rest, h => by
    unfold nums? at h
    split at h
    · next n ns' rest' h1 h2 =>
      cases h
      obtain ⟨h3, as, h4, h5⟩ := nums?_some h2
      exact ⟨by simp [h3], t :: as, by rw [h4]; rfl, num?_some h1, h5⟩
    · cases h

def counted? (l : Str) : Option (List Nat) :=
  match tokensOf l with
  | [] => none
  | t :: ts =>
    match num? t with
    | none => none
    | some k => (nums? k ts).map (·.1)

theorem counted?_some {l : Str} {ns : List Nat} (h : counted? l = some ns) : CountedNumbers l ns := by
  unfold counted? at h
  split at h
  · cases h
  · next t ts hl =>
    split at h
    · cases h
    · next k hk =>
      cases hn : nums? k ts with
      | none => rw [hn] at h; cases h
      | some p =>
        obtain ⟨ns', rest⟩ := p
        rw [hn] at h; cases h
        obtain ⟨h1, as, h2, h3⟩ := nums?_some hn
        refine ⟨t, as, rest, ?_, h1 ▸ num?_some hk, h3⟩
        rw [layout_iff, hl, h2]; rfl

def two? (l : Str) : Option (Nat × Nat) :=
  match tokensOf l with
  | s :: t :: _ =>
    match num? s, num? t with
    | some a, some b => some (a, b)
    | _, _ => none
  | _ => none

theorem two?_some {l : Str} {a b : Nat} (h : two? l = some (a, b)) : TwoNumbers l a b := by
  unfold two? at h
  split at h
  · next s t rest hl =>
    split at h
    · next a' b' h1 h2 =>
      cases h
      exact ⟨s, t, rest, layout_iff.mpr hl, num?_some h1, num?_some h2⟩
    · cases h
  · cases h

def op? (t : Str) : Option GOp := [GOp.xor, .and, .inv, .or, .eqw, .eq].find? fun o => o.name = t

theorem op?_some {t : Str} {o : GOp} (h : op? t = some o) : o.name = t := by
  have := List.find?_some h
  simpa using this

def gate? (l : Str) : Option GLine :=
  match tokensOf l with
  | a :: b :: ts =>
    match num? a, num? b with
    | some k, some 1 =>
      match nums? k ts with
      | some (args, o :: name :: _) =>
        match num? o, op? name with
        | some out, some op => some ⟨op, args, out⟩
        | _, _ => none
      | _ => none
    | _, _ => none
  | _ => none

theorem gate?_some {l : Str} {g : GLine} (h : gate? l = some g) : GateText l g := by
  unfold gate? at h
  split at h
  · next a b ts hl =>
    split at h
    · next k ha hb =>
      split at h
      · next args o name rest hn =>
        split at h
        · next out op ho hop =>
          cases h
          obtain ⟨h1, as, h2, h3⟩ := nums?_some hn
          refine ⟨a, b, as, o, rest, ?_, h1 ▸ num?_some ha, num?_some hb, h3, num?_some ho⟩
          rw [layout_iff, hl, h2, op?_some hop]; rfl
        · cases h
      · cases h
    · cases h
  · cases h

def gates? : List Str → Option (List GLine)
  | [] => some []
  | l :: ls =>
    match l with
    | [] => some []
    | _ :: _ =>
      match gate? l, gates? ls with
      | some g, some gs => some (g :: gs)
      | _, _ => none

theorem gates?_some : ∀ {ls : List Str} {gs : List GLine}, gates? ls = some gs →
    ∃ as tail, ls = as ++ tail ∧ All2 GateText as gs ∧ ∀ l, tail.head? = some l → l = []
  | [], gs, h => by cases h; exact ⟨[], [], rfl, trivial, by simp⟩
  | l :: ls, gs, h => by
    unfold gates? at h
    split at h
    · cases h
      exact ⟨[], [] :: ls, rfl, trivial, by simp⟩
    · split at h
      · next g gs' h1 h2 =>
        cases h
        obtain ⟨as, tail, h3, h4, h5⟩ := gates?_some h2
        exact ⟨_ :: as, tail, by rw [h3]; rfl, ⟨gate?_some h1, h4⟩, h5⟩
      · cases h

def file? (text : Str) : Option File :=
  match linesOf text with
  | l1 :: l2 :: l3 :: _ :: ls =>
    match two? l1, counted? l2, counted? l3, gates? ls with
    | some (a, b), some ins, some outs, some gs => some ⟨a, b, ins, outs, gs⟩
    | _, _, _, _ => none
  | _ => none

theorem file?_some {text : Str} {f : File} (h : file? text = some f) : Text f text := by
  unfold file? at h
  split at h
  · next l1 l2 l3 l4 ls hl =>
    split at h
    · next a b ins outs gs h1 h2 h3 h4 =>
      cases h
      obtain ⟨as, tail, h5, h6, h7⟩ := gates?_some h4
      exact ⟨l1, l2, l3, l4, as, tail, by rw [lines_iff, hl, h5], two?_some h1, counted?_some h2, counted?_some h3, h6, h7⟩
    · cases h
  · cases h

/-! ### validity -/

/-- the lines use wires below `k` or in `ds`; gives the wires defined at the end -/
def uses? (k : Nat) : List Nat → List GLine → Bool
  | _, [] => true
  | ds, l :: ls => l.args.length == l.op.arity && l.args.all (fun x => x < k || ds.contains x) && uses? k (l.out :: ds) ls

theorem uses?_true {k : Nat} : ∀ {ls : List GLine} {ds : List Nat}, uses? k ds ls = true → Uses (fun x => x < k ∨ x ∈ ds) ls
  | [], _, _ => trivial
  | l :: ls, ds, h => by
    simp only [uses?, Bool.and_eq_true, beq_iff_eq, List.all_eq_true, Bool.or_eq_true, decide_eq_true_eq,
      List.contains_eq_mem] at h
    refine ⟨h.1.1, h.1.2, ?_⟩
    have := uses?_true h.2
    have he : (fun x => x < k ∨ x ∈ l.out :: ds) = (fun x => (x < k ∨ x ∈ ds) ∨ x = l.out) := by
      funext x
      apply propext
      simp only [List.mem_cons]
      constructor
      · rintro (h | h | h)
        · exact .inl (.inl h)
        · exact .inr h
        · exact .inl (.inr h)
      · rintro ((h | h) | h)
        · exact .inl h
        · exact .inr (.inr h)
        · exact .inr (.inl h)
    rw [he] at this; exact this

/-- checks `File.Valid`: `uses?` and defined outputs -/
def valid? (f : File) : Bool :=
  uses? f.numIn [] f.gates && decide (f.numOut ≤ f.numWire) &&
    (rangeFromTo (f.numWire - f.numOut) f.numWire).all fun x => x < f.numIn || f.gates.any fun l => l.out == x

theorem valid?_true {f : File} (h : valid? f = true) : f.Valid := by
  simp only [valid?, Bool.and_eq_true, decide_eq_true_eq, List.all_eq_true, Bool.or_eq_true, List.any_eq_true,
    beq_iff_eq] at h
  refine ⟨?_, h.1.2, ?_⟩
  · have := uses?_true h.1.1
    simpa using this
  · intro x h1 h2
    exact h.2 x (by unfold rangeFromTo; rw [List.mem_map]; exact ⟨x - (f.numWire - f.numOut), by simp; omega, by omega⟩)

/-- checks that no line reads an output wire -/
def outputsUnread? (f : File) : Bool :=
  f.gates.all fun l => l.args.all fun x => x < f.numWire - f.numOut || f.numWire ≤ x

end CC.Bristol
