import Verif.Proofs.BrRead

/-!
# Reading whole files
-/

namespace CC.Bristol
open CC CC.Spec CC.Spec.Bristol

section
variable {r : Ref} {w : World} {c : Circuit}

/-! ### success -/

theorem val_gate {ins : List Bool} {g : GateId} {b : Bool} (h : Val w r ins g b) :
    ∃ c gate, w.circs[r]? = some c ∧ c.gateMap g = some gate := by
  cases h <;> exact ⟨_, _, by assumption, by assumption⟩

/-- what reading a valid file does -/
structure ReadFile (f : File) (r : Ref) (w : World) (c : Circuit) (w' : World) (c' : Circuit) : Prop where
  on : On r w w'
  wf : WFw w'
  ext : Ext w w'
  circ : w'.circs[r]? = some c'
  inputLen : c'.inputLen = c.inputLen + f.numIn
  outputLen : c'.outputLen = c.outputLen + f.numOut
  oldOut : ∀ i, i < c.outputLen → c'.outputMap i = c.outputMap i
  outs : ∀ pre ins : List Bool, pre.length = c.inputLen → ins.length = f.numIn → ∀ i, i < f.numOut →
    ∃ o b, c'.outputMap (c.outputLen + i) = some o ∧ f.output ins i = some b ∧ Val w' r (pre ++ ins) o b
  calls : SameCalls c c'
  topo : Topo c → Topo c'
  unread : Topo c → ∀ i o, i < f.numOut → c'.outputMap (c.outputLen + i) = some o →
    (∀ l ∈ f.gates, f.numWire - f.numOut + i ∉ l.args) → ∀ g gate, c'.gateMap g = some gate → o ∉ gate.operands

theorem inputGates_get {n k i : Nat} {gate : Gate} (h : (inputGates n k)[i]? = some gate) : gate = .input (n + i) ∧ i < k := by
  unfold inputGates at h
  by_cases hi : i < k
  · rw [List.getElem?_map, List.getElem?_range hi] at h
    cases h; exact ⟨rfl, hi⟩
  · rw [List.getElem?_eq_none (by simpa using hi)] at h; cases h

theorem GainsInputs.calls {w' : World} {c' : Circuit} {k : Nat} (hwc : WFc c) (h : GainsInputs r w c w' c' k) : SameCalls c c' := by
  intro g nIn nOut is oi mid hg
  rcases h.adds.cases hwc hg with h | ⟨i, rfl, hi⟩
  · exact h
  · cases (inputGates_get hi).1

theorem GainsInputs.readInv {w' : World} {c' : Circuit} {k : Nat} (hwc : WFc c) (h : GainsInputs r w c w' c' k)
    (ht : Topo c) : ReadInv c' (bindRange Map.empty 0 c.gateIndex k) (fun _ => False) := by
  have hidx : c'.gateIndex = c.gateIndex + k := by rw [h.adds.idx]; simp [inputGates]
  refine ⟨?_, ?_, ?_, ?_⟩
  · intro g gate hg x hx
    rcases h.adds.cases hwc hg with h | ⟨i, rfl, hi⟩
    · exact ht g gate h x hx
    · rw [(inputGates_get hi).1] at hx; cases hx
  · intro x g hx
    unfold bindRange at hx
    split at hx
    · cases hx; omega
    · cases hx
  · intro x y g hx hy
    unfold bindRange at hx hy
    split at hx
    · split at hy
      · cases hx; simp at hy; omega
      · cases hy
    · cases hx
  · intro x g y gate hx hy hg
    unfold bindRange at hx
    split at hx
    · cases hx
      rcases h.adds.cases hwc hy with h | ⟨i, rfl, hi⟩
      · have h1 := ht y gate h _ hg
        have h2 := lead_le y gate
        have h3 := hwc.lt_of_some h
        omega
      · rw [(inputGates_get hi).1] at hg; cases hg
    · cases hx

theorem GainsInputs.linked {w' : World} {c' : Circuit} {k : Nat} (h : GainsInputs r w c w' c' k)
    {pre ins : List Bool} (hp : pre.length = c.inputLen) (hi : ins.length = k) :
    Linked w' r (bindRange Map.empty 0 c.gateIndex k) (pre ++ ins) (inputWires ins) := by
  constructor
  · intro x g hx
    unfold bindRange at hx
    split at hx
    · next hlt =>
      cases hx
      refine ⟨ins[x]'(by omega), List.getElem?_eq_getElem (by omega), ?_⟩
      refine .input h.circ (k := c.inputLen + x) ?_ ?_
      · rw [h.adds.new]
        unfold inputGates
        rw [List.getElem?_map, List.getElem?_range (by omega)]
        simp
      · rw [List.getElem?_append_right (by omega), show c.inputLen + x - pre.length = x by omega,
          List.getElem?_eq_getElem (by omega)]
    · cases hx
  · intro x hx
    unfold bindRange at hx
    split at hx
    · cases hx
    · next hlt => exact List.getElem?_eq_none (by omega)

theorem bindRange_empty {g k : Nat} : (fun x => bindRange Map.empty 0 g k x ≠ none) = (· < k) := by
  apply uses_congr
  intro x
  unfold bindRange
  split
  · next h => simp; omega
  · next h => simp [Map.empty]; omega

theorem read_ok_of {f : File} {text l1 l2 l3 l4 : Str} {ls : List Str} (hw : WFw w) (hc : w.circs[r]? = some c)
    (hls : Lines (l1 :: l2 :: l3 :: l4 :: ls) text) (h1 : TwoNumbers l1 f.numGate f.numWire) (h2 : CountedNumbers l2 f.ins)
    (h3 : CountedNumbers l3 f.outs)
    (hrun : ∀ {w : World} {c : Circuit} {gow : GOW}, WFw w → w.circs[r]? = some c → (fun x => gow x ≠ none) = (· < f.numIn) →
      RunsW r w (readGates r gow ls) (ReadGates w r gow f.gates))
    (hroom : f.numOut ≤ f.numWire)
    (houts : ∀ x, f.numWire - f.numOut ≤ x → x < f.numWire → Defined (· < f.numIn) f.gates x) :
    ∃ gow w' c', read r Map.empty text w = (.ok gow, w') ∧ ReadFile f r w c w' c' := by
  obtain ⟨s1, t1, rest1, hl1, hs1, ht1⟩ := h1
  obtain ⟨s2, ts2, rest2, hl2, hs2, hts2⟩ := h2
  obtain ⟨s3, ts3, rest3, hl3, hs3, hts3⟩ := h3
  have hwc := hw.circ r c hc
  obtain ⟨w1, c1, he1, g1⟩ := readInputs_ok (r := r) f.ins 0 (rest := rest2) (gow := Map.empty) hw hc hts2
  obtain ⟨gow2, w2, he2, g2, h2⟩ := hrun g1.wf g1.circ (bindRange_empty (g := c.gateIndex))
  obtain ⟨c2, hc2, hcalls, hstruct⟩ := h2.struct c1 g1.circ
  obtain ⟨c2', hc2', hx2, hin2, hol2, hom2⟩ := g2.circ c1 g1.circ
  rw [hc2] at hc2'; cases hc2'
  -- every output wire has a gate
  have hdef : ∀ i, i < f.numOut → ∃ g, gow2 (f.numWire - f.numOut + i) = some g := by
    intro i hi
    have h1 := hroom
    have h3 := houts (f.numWire - f.numOut + i) (by omega) (by omega)
    rw [← bindRange_empty (g := c.gateIndex)] at h3
    exact Option.ne_none_iff_exists'.mp ((h2.defined _).mpr h3)
  -- the gates exist, also in circuits that are not topologically ordered
  have hlt : ∀ x g, gow2 x = some g → g < c2.gateIndex := by
    intro x g hx
    have hl := h2.linked _ _ (g1.linked (pre := List.replicate c.inputLen false) (ins := List.replicate f.ins.sum false)
      (by simp) (by simp))
    obtain ⟨b, _, hb⟩ := hl.bound x g hx
    obtain ⟨c', gate, k1, k2⟩ := val_gate hb
    rw [hc2] at k1; cases k1
    exact (g2.wf.circ r c2 hc2).lt_of_some k2
  obtain ⟨os, hos⟩ : ∃ os : List GateId, os.length = f.numOut ∧ ∀ i, i < f.numOut → gow2 (f.numWire - f.numOut + i) = os[i]? := by
    refine ⟨(List.range f.numOut).map fun i => (gow2 (f.numWire - f.numOut + i)).getD 0, by simp, ?_⟩
    intro i hi
    obtain ⟨g, hg⟩ := hdef i hi
    rw [List.getElem?_map, List.getElem?_range hi, hg]
    simp [hg]
  have hall : All2 (fun x g => gow2 x = some g ∧ g < c2.gateIndex) (rangeFromTo (f.numWire - f.numOut) f.numWire) os := by
    have h1 := hroom
    rw [all2_iff]
    refine ⟨by simp [rangeFromTo, hos.1]; omega, ?_⟩
    intro i a b ha hb
    unfold rangeFromTo at ha
    have hi : i < f.numOut := by rw [← hos.1]; exact (List.getElem?_eq_some_iff.mp hb).1
    rw [List.getElem?_map, List.getElem?_range (by omega)] at ha
    cases ha
    have h2 := (hos.2 i hi).trans hb
    exact ⟨h2, hlt _ _ h2⟩
  obtain ⟨w3, c3, he3, g3⟩ := readFinal_ok g2.wf hc2 hall
  have hout : ∀ i, i < f.numOut → c3.outputMap (c.outputLen + i) = gow2 (f.numWire - f.numOut + i) := by
    intro i hi
    rw [g3.outputMap, hol2, g1.adds.outputLen, if_neg (by omega), hos.2 i hi]
    congr 1; omega
  refine ⟨gow2, w3, c3, ?_, ?_⟩
  · unfold read
    rw [bind_lift_ok (a := (l1, l2 :: l3 :: l4 :: ls)) (by rw [lines_iff.mp hls]; rfl)]
    simp only []
    rw [layout_iff.mp hl1, bind_lift_ok (nextUsize_cons hs1)]
    simp only []
    rw [bind_lift_ok (nextUsize_cons ht1)]
    simp only []
    rw [bind_lift_ok (x := nextLine 2 (l2 :: l3 :: l4 :: ls)) rfl]
    simp only []
    rw [layout_iff.mp hl2, List.cons_append, bind_lift_ok (nextUsize_cons hs2)]
    simp only []
    rw [bind_ok he1, bind_lift_ok (x := nextLine 3 (l3 :: l4 :: ls)) rfl]
    simp only []
    rw [layout_iff.mp hl3, List.cons_append, bind_lift_ok (nextUsize_cons hs3)]
    simp only []
    rw [bind_lift_ok (readOutputLens_ok f.outs 0 hts3), bind_lift_ok (x := nextLine 4 (l4 :: ls)) rfl]
    simp only [Nat.zero_add]
    rw [bind_ok (show readGates r (bindRange Map.empty 0 c.gateIndex f.ins.sum) ls w1 = _ from he2)]
    unfold File.numOut at hroom he3
    rw [if_neg (by omega), bind_ok he3]
    rfl
  · refine ⟨(g1.on.trans g2.on).trans g3.on, g3.wf, (g1.ext.trans g2.ext).trans g3.ext, g3.circ, ?_, ?_, ?_, ?_, ?_, ?_, ?_⟩
    · rw [g3.inputLen, hin2, g1.inputLen]; rfl
    · rw [g3.outputLen, hol2, g1.adds.outputLen, hos.1]
    · intro i hi
      rw [g3.outputMap, hol2, g1.adds.outputLen, if_pos hi, hom2, g1.adds.outputMap]
    · intro pre ins hp hi i hlt
      obtain ⟨o, ho⟩ := hdef i hlt
      obtain ⟨b, hb1, hb2⟩ := (h2.linked _ _ (g1.linked hp hi)).bound _ o ho
      exact ⟨o, b, by rw [hout i hlt, ho], hb1, g3.val hc2 hb2⟩
    · intro g nIn nOut is oi mid hg
      rw [g3.gateMap] at hg
      exact g1.calls hwc _ _ _ _ _ _ (hcalls _ _ _ _ _ _ hg)
    · intro htopo
      have := (hstruct _ (g1.readInv hwc htopo)).topo
      unfold Topo at this ⊢
      rw [g3.gateMap]; exact this
    · intro htopo i o hi ho hno g gate hg hmem
      rw [hout i hi] at ho
      rw [g3.gateMap] at hg
      rcases (hstruct _ (g1.readInv hwc htopo)).read _ o g gate ho hg hmem with h | ⟨l, hl, hx⟩
      · exact h
      · exact hno l hl hx

theorem read_ok {f : File} {text : Str} (hw : WFw w) (hc : w.circs[r]? = some c) (ht : Text f text) (hv : f.Valid) :
    ∃ gow w' c', read r Map.empty text w = (.ok gow, w') ∧ ReadFile f r w c w' c' := by
  obtain ⟨l1, l2, l3, l4, ls, tail, hls, h1, h2, h3, hgs, htail⟩ := ht
  refine read_ok_of hw hc hls h1 h2 h3 ?_ hv.room hv.outs
  intro w c gow hw hc hg
  exact readGates_ok hw hc hgs htail (by rw [hg]; exact hv.uses)

/-! ### only the target circuit changes -/

/-- storages and other circuits stay as they are -/
def Local (r : Ref) {α} (x : M α) : Prop := ∀ w, (x w).2.stores = w.stores ∧ (x w).2.circs.length = w.circs.length ∧
  ∀ q, q ≠ r → (x w).2.circs[q]? = w.circs[q]?

theorem Local.pure {α} (a : α) : Local r (pure a : M α) := fun _ => ⟨rfl, rfl, fun _ _ => rfl⟩

theorem Local.throw {α} (e : Err) : Local r (M.throw e : M α) := fun _ => ⟨rfl, rfl, fun _ _ => rfl⟩

theorem Local.lift {α} (x : Except Err α) : Local r (lift x) := fun _ => ⟨rfl, rfl, fun _ _ => rfl⟩

theorem Local.idx {α} (l : List α) (i : Nat) : Local r (M.idx l i) := by
  unfold M.idx; split
  · exact .pure _
  · exact .throw _

theorem Local.bind {α β} {x : M α} {f : α → M β} (hx : Local r x) (hf : ∀ a, Local r (f a)) : Local r (x >>= f) := by
  intro w
  rw [M.bind_apply]
  have h1 := hx w
  rcases h : x w with ⟨a | a, w'⟩
  · rw [h] at h1; exact h1
  · rw [h] at h1
    have h2 := hf a w'
    exact ⟨h2.1.trans h1.1, h2.2.1.trans h1.2.1, fun q hq => (h2.2.2 q hq).trans (h1.2.2 q hq)⟩

theorem Local.onCircuit {α} (f : Circuit → Except Err α × Circuit) : Local r (M.onCircuit r f) := by
  intro w
  unfold M.onCircuit
  split
  · exact ⟨rfl, rfl, fun _ _ => rfl⟩
  · refine ⟨rfl, by simp [World.setC], fun q hq => ?_⟩
    simp only [World.setC]
    exact List.getElem?_set_ne (fun h => hq h.symm)

theorem Local.identity (x : GateId) : Local r (identity r x) := by
  unfold CC.identity
  exact .bind (.onCircuit _) fun _ => .onCircuit _

theorem local_bindOut (gow : GOW) (ws : List Nat) (g : GateId) : Local r (bindOut gow ws g) :=
  .bind (.idx _ _) fun _ => .pure _

theorem local_readGateOp (gow : GOW) (gs : List GateId) (ws : List Nat) (op : Str) : Local r (readGateOp r gow gs ws op) := by
  unfold readGateOp
  split
  · exact .bind (.idx _ _) fun _ => .bind (.onCircuit _) fun _ => local_bindOut _ _ _
  split
  · exact .bind (.idx _ _) fun _ => .bind (.idx _ _) fun _ => .bind (.onCircuit _) fun _ => local_bindOut _ _ _
  split
  · exact .bind (.idx _ _) fun _ => .bind (.idx _ _) fun _ => .bind (.onCircuit _) fun _ => local_bindOut _ _ _
  split
  · exact .bind (.idx _ _) fun _ => .bind (.idx _ _) fun _ => .bind (.onCircuit _) fun _ => local_bindOut _ _ _
  split
  · exact .bind (.idx _ _) fun _ => .bind (.identity _) fun _ => local_bindOut _ _ _
  · exact .throw _

theorem local_readGates : ∀ (ls : List Str) (gow : GOW), Local r (readGates r gow ls)
  | [], _ => .pure _
  | l :: ls, gow => by
    unfold readGates
    split
    · exact .pure _
    · exact .bind (.lift _) fun _ => .bind (local_readGateOp _ _ _ _) fun gow => local_readGates ls gow

theorem local_readFinal (gow : GOW) : ∀ xs, Local r (readFinal r gow xs)
  | [] => .pure _
  | x :: xs => by
    unfold readFinal
    split
    · exact .throw _
    · exact .bind (.onCircuit _) fun _ => local_readFinal gow xs

theorem local_readInputBits : ∀ (k start : Nat) (gow : GOW), Local r (readInputBits r gow start k)
  | 0, _, _ => .pure _
  | k + 1, _, _ => .bind (.onCircuit _) fun _ => local_readInputBits k _ _

theorem local_readInputs : ∀ (k sum : Nat) (gow : GOW) (ts : List Str), Local r (readInputs r gow sum k ts)
  | 0, _, _, _ => .pure _
  | k + 1, _, _, _ => .bind (.lift _) fun _ => .bind (local_readInputBits _ _ _) fun _ => local_readInputs k _ _ _

theorem local_read (gow : GOW) (text : Str) : Local r (read r gow text) := by
  unfold read
  refine .bind (.lift _) fun _ => .bind (.lift _) fun _ => .bind (.lift _) fun _ => .bind (.lift _) fun _ =>
    .bind (.lift _) fun _ => .bind (local_readInputs _ _ _ _) fun _ => .bind (.lift _) fun _ => .bind (.lift _) fun _ =>
    .bind (.lift _) fun _ => .bind (.lift _) fun _ => .bind (local_readGates _ _) fun _ => ?_
  split
  · exact .throw _
  · exact .bind (local_readFinal _ _) fun _ => .pure _

/-! ### reading is a sequence of API calls -/

theorem _root_.CC.Plays.lift {α} (x : Except Err α) : Plays (lift x) := fun w => .refl w

theorem plays_bindOut (gow : GOW) (ws : List Nat) (g : GateId) : Plays (bindOut gow ws g) :=
  .bind (.idx _ _) fun _ => .pure _

theorem plays_readGateOp (gow : GOW) (gs : List GateId) (ws : List Nat) (op : Str) : Plays (readGateOp r gow gs ws op) := by
  unfold readGateOp
  split
  · exact .bind (.idx _ _) fun _ => .bind (plays_not _ _) fun _ => plays_bindOut _ _ _
  split
  · exact .bind (.idx _ _) fun _ => .bind (.idx _ _) fun _ => .bind (plays_xor _ _ _) fun _ => plays_bindOut _ _ _
  split
  · exact .bind (.idx _ _) fun _ => .bind (.idx _ _) fun _ => .bind (plays_and _ _ _) fun _ => plays_bindOut _ _ _
  split
  · exact .bind (.idx _ _) fun _ => .bind (.idx _ _) fun _ => .bind (plays_or _ _ _) fun _ => plays_bindOut _ _ _
  split
  · exact .bind (.idx _ _) fun _ => .bind (plays_identity _ _) fun _ => plays_bindOut _ _ _
  · exact .throw _

theorem plays_readGates : ∀ (ls : List Str) (gow : GOW), Plays (readGates r gow ls)
  | [], _ => .pure _
  | l :: ls, gow => by
    unfold readGates
    split
    · exact .pure _
    · exact .bind (.lift _) fun _ => .bind (plays_readGateOp _ _ _ _) fun gow => plays_readGates ls gow

theorem plays_readFinal (gow : GOW) : ∀ xs, Plays (readFinal r gow xs)
  | [] => .pure _
  | x :: xs => by
    unfold readFinal
    split
    · exact .throw _
    · exact .bind (plays_output _ _) fun _ => plays_readFinal gow xs

theorem plays_readInputBits : ∀ (k start : Nat) (gow : GOW), Plays (readInputBits r gow start k)
  | 0, _, _ => .pure _
  | k + 1, _, _ => .bind (plays_input _) fun _ => plays_readInputBits k _ _

theorem plays_readInputs : ∀ (k sum : Nat) (gow : GOW) (ts : List Str), Plays (readInputs r gow sum k ts)
  | 0, _, _, _ => .pure _
  | k + 1, _, _, _ => .bind (.lift _) fun _ => .bind (plays_readInputBits _ _ _) fun _ => plays_readInputs k _ _ _

theorem plays_read (gow : GOW) (text : Str) : Plays (read r gow text) := by
  unfold read
  refine .bind (.lift _) fun _ => .bind (.lift _) fun _ => .bind (.lift _) fun _ => .bind (.lift _) fun _ =>
    .bind (.lift _) fun _ => .bind (plays_readInputs _ _ _ _) fun _ => .bind (.lift _) fun _ => .bind (.lift _) fun _ =>
    .bind (.lift _) fun _ => .bind (.lift _) fun _ => .bind (plays_readGates _ _) fun _ => ?_
  split
  · exact .throw _
  · exact .bind (plays_readFinal _ _) fun _ => .pure _

/-! ### malformed texts -/

theorem bind_error' {α β} {x : M α} {w w' : World} {e : Err} (h : x w = (.error e, w')) (f : α → M β) :
    (x >>= f) w = (.error e, w') := by rw [M.bind_apply, h]

theorem readInputs_bad {k : Nat} {ts : List Str} {e : Err} (h : BadNums k ts e) : ∀ {sum : Nat} {gow : GOW} {w : World} {c : Circuit},
    WFw w → w.circs[r]? = some c → ∃ w', readInputs r gow sum k ts w = (.error e, w') := by
  induction h with
  | missing => intro sum gow w c hw hc; exact ⟨w, by rw [readInputs]; exact bind_lift_error nextUsize_nil _ _⟩
  | notNum ht => intro sum gow w c hw hc; exact ⟨w, by rw [readInputs]; exact bind_lift_error (nextUsize_bad ht) _ _⟩
  | @next k t n ts e ht _ ih =>
    intro sum gow w c hw hc
    obtain ⟨w1, c1, h1, g1⟩ := readInputBits_ok n sum (gow := gow) hw hc
    obtain ⟨w2, h2⟩ := ih (sum := sum + n) (gow := bindRange gow sum c.gateIndex n) g1.wf g1.circ
    refine ⟨w2, ?_⟩
    rw [readInputs, bind_lift_ok (nextUsize_cons ht)]
    simp only []
    rw [bind_ok h1, h2]

theorem readOutputLens_bad {k : Nat} {ts : List Str} {e : Err} (h : BadNums k ts e) : ∀ {sum : Nat},
    readOutputLens sum k ts = .error e := by
  induction h with
  | missing => intro sum; rw [readOutputLens]; exact ebind_error nextUsize_nil _
  | notNum ht => intro sum; rw [readOutputLens]; exact ebind_error (nextUsize_bad ht) _
  | @next k t n ts e ht _ ih =>
    intro sum
    rw [readOutputLens, ebind_ok (nextUsize_cons ht)]
    exact ih

theorem readOutWires_bad {k : Nat} {ts : List Str} {e : Err} (h : BadNums k ts e) : readOutWires k ts = .error e := by
  induction h with
  | missing => rw [readOutWires]; exact ebind_error nextUsize_nil _
  | notNum ht => rw [readOutWires]; exact ebind_error (nextUsize_bad ht) _
  | @next k t n ts e ht _ ih =>
    rw [readOutWires, ebind_ok (nextUsize_cons ht)]
    exact ebind_error ih _

theorem readOperands_bad {P : Nat → Prop} {gow : GOW} (hP : ∀ x, P x ↔ gow x ≠ none) {k : Nat} {ts : List Str} {e : Err}
    (h : BadOperands P k ts e) : readOperands gow k ts = .error e := by
  induction h with
  | missing => rw [readOperands]; exact ebind_error nextUsize_nil _
  | notNum ht => rw [readOperands]; exact ebind_error (nextUsize_bad ht) _
  | @unknown k t n ts ht hn =>
    rw [readOperands, ebind_ok (nextUsize_cons ht)]
    have : gow n = none := by rw [hP] at hn; simpa using hn
    simp only [this]
  | @next k t n ts e ht hn _ ih =>
    rw [readOperands, ebind_ok (nextUsize_cons ht)]
    obtain ⟨g, hg⟩ := Option.ne_none_iff_exists'.mp ((hP n).mp hn)
    simp only [hg]
    exact ebind_error ih _

theorem nextUsize2_bad {ts : List Str} {e : Err} (h : BadNums 2 ts e) : nextUsize ts = .error e ∨
    ∃ n ts', nextUsize ts = .ok (n, ts') ∧ nextUsize ts' = .error e := by
  cases h with
  | missing => exact .inl nextUsize_nil
  | notNum ht => exact .inl (nextUsize_bad ht)
  | @next _ t n ts e ht h =>
    refine .inr ⟨n, ts, nextUsize_cons ht, ?_⟩
    cases h with
    | missing => exact nextUsize_nil
    | notNum ht => exact nextUsize_bad ht
    | next ht h => cases h

theorem nextUsize1_bad {ts : List Str} {e : Err} (h : BadNums 1 ts e) : nextUsize ts = .error e := by
  cases h with
  | missing => exact nextUsize_nil
  | notNum ht => exact nextUsize_bad ht
  | next ht h => cases h

theorem readGateOp_bad (gow : GOW) (gs : List GateId) (ws : List Nat) {t : Str} (h : ∀ op : GOp, t ≠ op.name) (w : World) :
    readGateOp r gow gs ws t w = (.error (.notSupportedGate t), w) := by
  have h1 := h .inv; have h2 := h .eq; have h3 := h .eqw; have h4 := h .xor; have h5 := h .and; have h6 := h .or
  simp only [GOp.name] at h1 h2 h3 h4 h5 h6
  unfold readGateOp
  rw [if_neg h1, if_neg h4, if_neg h5, if_neg h6, if_neg (fun h => h.elim h2 h3)]
  rfl

theorem readGate_bad {P : Nat → Prop} {gow : GOW} (hP : ∀ x, P x ↔ gow x ≠ none) {l : Str} {rest ts : List Str} {e : Err}
    (hl : l ≠ []) (hlay : Layout ts l) (h : BadGate P ts e) (w : World) : readGates r gow (l :: rest) w = (.error e, w) := by
  have hne : l.isEmpty = false := by simpa using hl
  rw [readGates, hne, layout_iff.mp hlay]
  have key : ∀ {β} (f : _ → M β), readGateTokens gow ts = .error e → (lift (readGateTokens gow ts) >>= f) w = (.error e, w) :=
    fun f h => bind_lift_error h f w
  cases h with
  | counts h =>
    refine key _ ?_
    unfold readGateTokens
    rcases nextUsize2_bad h with h | ⟨n, ts', h1, h2⟩
    · exact ebind_error h _
    · rw [ebind_ok h1]; exact ebind_error h2 _
  | operands ha hb h =>
    refine key _ ?_
    unfold readGateTokens
    rw [ebind_ok (nextUsize_cons ha)]
    simp only []
    rw [ebind_ok (nextUsize_cons hb)]
    exact ebind_error (readOperands_bad hP h) _
  | @outs a b m as ns ts e ha hb has hns h =>
    refine key _ ?_
    unfold readGateTokens
    obtain ⟨gs, _, h2⟩ := readOperands_ok (rest := ts) has (fun x hx => (hP x).mp (hns x hx))
    rw [List.cons_append, List.cons_append, ebind_ok (nextUsize_cons ha)]
    simp only []
    rw [ebind_ok (nextUsize_cons hb)]
    simp only []
    rw [ebind_ok h2]
    exact ebind_error (readOutWires_bad h) _
  | @noName a b as ns bs ms ha hb has hns hms =>
    refine key _ ?_
    unfold readGateTokens
    obtain ⟨gs, _, h2⟩ := readOperands_ok (rest := bs) has (fun x hx => (hP x).mp (hns x hx))
    have h3 := readOutWires_ok (rest := []) hms
    rw [List.append_nil] at h3
    rw [List.cons_append, List.cons_append, ebind_ok (nextUsize_cons ha)]
    simp only []
    rw [ebind_ok (nextUsize_cons hb)]
    simp only []
    rw [ebind_ok h2]
    simp only []
    rw [ebind_ok h3]
    rfl
  | @name a b as ns bs ms t ts ha hb has hns hms hop =>
    have htok : ∃ gs, readGateTokens gow (a :: b :: as ++ bs ++ t :: ts) = .ok (gs, ms, t) := by
      obtain ⟨gs, _, h2⟩ := readOperands_ok (rest := bs ++ t :: ts) has (fun x hx => (hP x).mp (hns x hx))
      have h3 := readOutWires_ok (rest := t :: ts) hms
      refine ⟨gs, ?_⟩
      unfold readGateTokens
      rw [List.append_assoc, List.cons_append, List.cons_append, ebind_ok (nextUsize_cons ha)]
      simp only []
      rw [ebind_ok (nextUsize_cons hb)]
      simp only []
      rw [ebind_ok h2]
      simp only []
      rw [ebind_ok h3]
      rfl
    obtain ⟨gs, htok⟩ := htok
    refine (bind_lift_ok htok _ w).trans ?_
    exact bind_error' (readGateOp_bad gow gs ms hop w) _

/-! ### the parts of the header -/

theorem read_first {text : Str} : ∀ {l1 ls a b}, Lines (l1 :: ls) text → TwoNumbers l1 a b → ∃ x : M GOW, read r Map.empty text w = x w ∧
      x = (do
        let (l2, ls) ← lift (nextLine 2 ls)
        let (numInput, ts) ← lift (nextUsize (tokensOf l2))
        let gow ← readInputs r Map.empty 0 numInput ts
        let (l3, ls) ← lift (nextLine 3 ls)
        let (numOutput, ts) ← lift (nextUsize (tokensOf l3))
        let outSum ← lift (readOutputLens 0 numOutput ts)
        let (_, ls) ← lift (nextLine 4 ls)
        let gow ← readGates r gow ls
        if b < outSum then M.throw (.panic .underflow)
        else do
          readFinal r gow (rangeFromTo (b - outSum) b)
          pure gow) := by
  rintro l1 ls a b hls ⟨s1, t1, rest1, hl1, hs1, ht1⟩
  refine ⟨_, ?_, rfl⟩
  unfold read
  rw [bind_lift_ok (a := (l1, ls)) (by rw [lines_iff.mp hls]; rfl)]
  simp only []
  rw [layout_iff.mp hl1, bind_lift_ok (nextUsize_cons hs1)]
  simp only []
  rw [bind_lift_ok (nextUsize_cons ht1)]

theorem read_second {text : Str} (hw : WFw w) (hc : w.circs[r]? = some c) : ∀ {l1 l2 ls a b is}, Lines (l1 :: l2 :: ls) text → TwoNumbers l1 a b → CountedNumbers l2 is →
      ∃ (x : M GOW) (w1 : World) (c1 : Circuit), read r Map.empty text w = x w1 ∧ GainsInputs r w c w1 c1 is.sum ∧
      x = (do
        let gow := bindRange Map.empty 0 c.gateIndex is.sum
        let (l3, ls) ← lift (nextLine 3 ls)
        let (numOutput, ts) ← lift (nextUsize (tokensOf l3))
        let outSum ← lift (readOutputLens 0 numOutput ts)
        let (_, ls) ← lift (nextLine 4 ls)
        let gow ← readGates r gow ls
        if b < outSum then M.throw (.panic .underflow)
        else do
          readFinal r gow (rangeFromTo (b - outSum) b)
          pure gow) := by
  rintro l1 l2 ls a b is hls h1 ⟨s2, ts2, rest2, hl2, hs2, hts2⟩
  obtain ⟨x, h3, rfl⟩ := read_first (r := r) (w := w) hls h1
  obtain ⟨w1, c1, he1, g1⟩ := readInputs_ok (r := r) is 0 (rest := rest2) (gow := Map.empty) hw hc hts2
  refine ⟨_, w1, c1, ?_, g1, rfl⟩
  rw [h3, bind_lift_ok (x := nextLine 2 (l2 :: ls)) rfl]
  simp only []
  rw [layout_iff.mp hl2, List.cons_append, bind_lift_ok (nextUsize_cons hs2)]
  simp only []
  rw [bind_ok he1]

theorem read_third {text : Str} (hw : WFw w) (hc : w.circs[r]? = some c) : ∀ {l1 l2 l3 ls a b is os}, Lines (l1 :: l2 :: l3 :: ls) text → TwoNumbers l1 a b → CountedNumbers l2 is →
      CountedNumbers l3 os →
      ∃ (x : M GOW) (w1 : World) (c1 : Circuit), read r Map.empty text w = x w1 ∧ GainsInputs r w c w1 c1 is.sum ∧
      x = (do
        let gow := bindRange Map.empty 0 c.gateIndex is.sum
        let (_, ls) ← lift (nextLine 4 ls)
        let gow ← readGates r gow ls
        if b < os.sum then M.throw (.panic .underflow)
        else do
          readFinal r gow (rangeFromTo (b - os.sum) b)
          pure gow) := by
  rintro l1 l2 l3 ls a b is os hls h1 h2 ⟨s3, ts3, rest3, hl3, hs3, hts3⟩
  obtain ⟨x, w1, c1, h3, g1, rfl⟩ := read_second hw hc hls h1 h2
  refine ⟨_, w1, c1, ?_, g1, rfl⟩
  rw [h3]
  simp only []
  rw [bind_lift_ok (x := nextLine 3 (l3 :: ls)) rfl]
  simp only []
  rw [layout_iff.mp hl3, List.cons_append, bind_lift_ok (nextUsize_cons hs3)]
  simp only []
  rw [bind_lift_ok (readOutputLens_ok os 0 hts3)]
  simp only [Nat.zero_add]

theorem read_bad {text : Str} {e : Err} (hw : WFw w) (hc : w.circs[r]? = some c) (h : Malformed text e) :
    ∃ w', read r Map.empty text w = (.error e, w') := by
  cases h with
  | line1 hls =>
    refine ⟨w, ?_⟩
    unfold read
    exact bind_lift_error (by rw [lines_iff.mp hls]; rfl) _ _
  | @head l1 ls ts e hls hlay hbad =>
    refine ⟨w, ?_⟩
    unfold read
    rw [bind_lift_ok (a := (l1, ls)) (by rw [lines_iff.mp hls]; rfl)]
    simp only []
    rw [layout_iff.mp hlay]
    rcases nextUsize2_bad hbad with h | ⟨n, ts', h1, h2⟩
    · exact bind_lift_error h _ _
    · rw [bind_lift_ok h1]; exact bind_lift_error h2 _ _
  | line2 hls h1 =>
    obtain ⟨x, h3, rfl⟩ := read_first (r := r) (w := w) hls h1
    exact ⟨w, h3.trans (bind_lift_error rfl _ _)⟩
  | @ins l1 l2 ls a b ts e hls h1 hlay hbad =>
    obtain ⟨x, h3, rfl⟩ := read_first (r := r) (w := w) hls h1
    rw [h3, bind_lift_ok (x := nextLine 2 (l2 :: ls)) rfl]
    simp only []
    rw [layout_iff.mp hlay]
    cases hbad with
    | count h => exact ⟨w, bind_lift_error (nextUsize1_bad h) _ _⟩
    | items ht h =>
      obtain ⟨w', h'⟩ := readInputs_bad (r := r) h (sum := 0) (gow := Map.empty) hw hc
      refine ⟨w', ?_⟩
      rw [bind_lift_ok (nextUsize_cons ht)]
      exact bind_error' h' _
  | line3 hls h1 h2 =>
    obtain ⟨x, w1, c1, h3, g1, rfl⟩ := read_second hw hc hls h1 h2
    exact ⟨w1, h3.trans (bind_lift_error rfl _ _)⟩
  | @outs l1 l2 l3 ls a b is ts e hls h1 h2 hlay hbad =>
    obtain ⟨x, w1, c1, h3, g1, rfl⟩ := read_second hw hc hls h1 h2
    refine ⟨w1, ?_⟩
    rw [h3]
    simp only []
    rw [bind_lift_ok (x := nextLine 3 (l3 :: ls)) rfl]
    simp only []
    rw [layout_iff.mp hlay]
    cases hbad with
    | count h => exact bind_lift_error (nextUsize1_bad h) _ _
    | items ht h =>
      rw [bind_lift_ok (nextUsize_cons ht)]
      exact bind_lift_error (readOutputLens_bad h) _ _
  | line4 hls h1 h2 h3 =>
    obtain ⟨x, w1, c1, h4, g1, rfl⟩ := read_third hw hc hls h1 h2 h3
    exact ⟨w1, h4.trans (bind_lift_error rfl _ _)⟩
  | @gate l1 l2 l3 l4 ls l rest a b is os gs ts e hls h1 h2 h3 hgs hu hl hlay hbad =>
    obtain ⟨x, w1, c1, h4, g1, rfl⟩ := read_third hw hc hls h1 h2 h3
    rw [h4]
    simp only []
    rw [bind_lift_ok (x := nextLine 4 (l4 :: (ls ++ l :: rest))) rfl]
    simp only []
    rw [← bindRange_empty (g := c.gateIndex)] at hu hbad
    obtain ⟨gow2, w2, g2, r2, he⟩ := readGates_prefix (l :: rest) g1.wf g1.circ hgs hu
    refine ⟨w2, bind_error' (he.trans ?_) _⟩
    exact readGate_bad (fun x => (r2.defined x).symm) hl hlay hbad w2

end

end CC.Bristol
