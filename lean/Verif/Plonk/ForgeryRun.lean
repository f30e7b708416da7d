import Verif.Plonk.Forces

/-!
# C62: counterexamples

The equation `1=2` is parsed, compiled and proved, and the proof is accepted.
-/

set_option linter.unusedSectionVars false
set_option linter.unusedSimpArgs false
set_option linter.unusedVariables false

namespace Verif.Plonk

open Verif.Ark Verif.Kzg

deriving instance DecidableEq for Position
deriving instance DecidableEq for Gate
deriving instance DecidableEq for Circuit

theorem asciiTables_sane : asciiTables.Sane := by
  refine ⟨by decide, fun c hc => ?_⟩
  simp only [asciiTables, Bool.or_eq_false_iff, decide_eq_false_iff_not]
  refine ⟨⟨⟨?_, ?_⟩, ?_⟩, ?_⟩ <;> (rintro rfl; revert hc; decide)

/-- The equation `1=2`. -/
def eq12 : Equation := ⟨[[.lit 1]], [.lit 2]⟩

theorem eq12_ok : eq12.Ok asciiTables := by
  refine ⟨by simp [eq12], by simp [eq12], by simp [eq12], ?_, ?_, by simp [eq12]⟩
  · intro t ht f hf
    simp only [eq12, List.mem_singleton] at ht
    subst ht
    rw [List.mem_singleton] at hf
    subst hf
    show Int.natAbs 1 < 2 ^ 31
    decide
  · intro f hf
    simp only [eq12, List.mem_singleton] at hf
    subst hf
    show Int.natAbs 2 < 2 ^ 31
    decide

theorem eq12_text : eq12.text = "1=2".toList := by decide +kernel

theorem eq12_false (ρ : List Char → BlsFr) : ¬ eq12.Holds ρ := by
  simp only [Equation.Holds, eq12, Factor.val, List.map_cons, List.map_nil, List.prod_cons, List.prod_nil,
    List.sum_cons, List.sum_nil]
  decide +kernel

theorem eq12_covers : Covers (noWitness : List Char → Option BlsFr) eq12 (fun _ => 0) := by
  refine ⟨?_, fun nm v h => by cases h⟩
  rintro nm ⟨neg, ⟨t, ht, h⟩ | h⟩
  · simp only [eq12, List.mem_singleton] at ht
    subst ht
    simp at h
  · simp [eq12] at h

/-- **C62** is false: the circuit of the equation `1=2`, which no values satisfy, has satisfying wire values. -/
theorem C62_unsatisfiable_equation_satisfied :
    ¬ ∀ (e : Equation) (wit : List Char → Option BlsFr) (calls : List (GateCall BlsFr)), e.Ok asciiTables →
      parse asciiTables wit e.text = some (build calls) → (∃ V, Satisfies calls V) → ∃ ρ : List Char → BlsFr, e.Holds ρ := by
  intro h
  obtain ⟨calls, h1, V, h2, -⟩ := C62_every_assignment_satisfies asciiTables asciiTables_sane eq12 eq12_ok noWitness
    (fun _ => (0 : BlsFr)) eq12_covers eq12.text (by rw [eq12_text]; decide +kernel)
  obtain ⟨ρ, hρ⟩ := h eq12 noWitness calls eq12_ok h1 ⟨V, h2⟩
  exact eq12_false ρ hρ

/-! ## Negated variables -/

/-- The calls made for `x*y=x` with `x = 1`, `y = 2`. -/
def xyxCalls : List (GateCall BlsFr) :=
  [⟨.multiplication, (0, 0, 1), (1, 0, 2), (0, 1, 2), 0⟩, ⟨.addition, (2, 0, 2), (1, 1, -1), (2, 1, 0), 0⟩]

/-- Even with the last output wire at zero, the equation is not forced: in `x*y=x` the wire of `-x` is not related
to the wire of `x`, and the values `x = 1`, `y = 2`, `-x = -2` satisfy the circuit. -/
theorem C62_negated_unrelated :
    parse asciiTables (addWitness (addWitness noWitness ['x'] 1) ['y'] 2) "x*y=x".toList = some (build xyxCalls) ∧
    Satisfies xyxCalls (fun l i => match l, i with
      | 0, 0 => 1 | 1, 0 => 2 | 2, 0 => 2 | 0, 1 => 2 | 1, 1 => -2 | _, _ => 0) := by
  constructor
  · decide +kernel
  · constructor
    · intro i call hi
      rcases i with _ | _ | i
      · simp only [xyxCalls, List.getElem?_cons_zero, Option.some.injEq] at hi
        subst hi
        simp only [GateCall.Relation]
        decide +kernel
      · simp only [xyxCalls, List.getElem?_cons_zero, List.getElem?_cons_succ, Option.some.injEq] at hi
        subst hi
        simp only [GateCall.Relation]
        decide +kernel
      · simp [xyxCalls] at hi
    · decide +kernel

/-! ## An accepted proof of `1=2` -/

/-- The calls made for `1=2`. -/
def calls12 : List (GateCall BlsFr) :=
  [⟨.constant, (0, 2, 1), (1, 1, 0), (2, 0, 1), 0⟩, ⟨.constant, (1, 2, -2), (1, 0, 0), (2, 1, -2), 0⟩,
   ⟨.addition, (0, 0, 1), (0, 1, -2), (2, 2, 0), 0⟩]

/-- The same with the value of the last wire changed to `-1`. -/
def forged12 : List (GateCall BlsFr) :=
  [⟨.constant, (0, 2, 1), (1, 1, 0), (2, 0, 1), 0⟩, ⟨.constant, (1, 2, -2), (1, 0, 0), (2, 1, -2), 0⟩,
   ⟨.addition, (0, 0, 1), (0, 1, -2), (2, 2, -1), 0⟩]

theorem calls12_eq : parse asciiTables noWitness "1=2".toList = some (build calls12) := by decide +kernel

/-- The compiled circuit on a given domain. -/
noncomputable def ccOf (d : Domain BlsFr) (calls : List (GateCall BlsFr)) : CompiledCircuit BlsFr where
  size := d.size
  gate :=
    { fax := d.interpolate (calls.map fun r => r.a.2.2)
      fbx := d.interpolate (calls.map fun r => r.b.2.2)
      fcx := d.interpolate (calls.map fun r => r.c.2.2)
      qlx := d.interpolate (calls.map fun r => r.gate.qL)
      qrx := d.interpolate (calls.map fun r => r.gate.qR)
      qox := d.interpolate (calls.map fun r => r.gate.qO)
      qmx := d.interpolate (calls.map fun r => r.gate.qM)
      qcx := d.interpolate (calls.map fun r => r.gate.qC)
      pix := d.interpolate (calls.map fun r => r.gate.pi) }
  copy :=
    { s1 := d.interpolate (overwrite d.elements 0 (calls.map fun c => label d.gen c.a.1 c.a.2.1))
      s2 := d.interpolate (overwrite (d.elements.map fun r => r * 2) 0
        (calls.map fun c => label d.gen c.b.1 c.b.2.1))
      s3 := d.interpolate (overwrite (d.elements.map fun r => r * 3) 0
        (calls.map fun c => label d.gen c.c.1 c.c.2.1))
      k1 := 2
      k2 := 3 }

/-- A square root of `-1`. -/
def im : BlsFr := 3465144826073652318776269530687742778270252468765361963008

/-- The two candidates for the domain of size 4. -/
def dom4 (neg : Bool) : Domain BlsFr := ⟨2, if neg then -im else im⟩

theorem dom4_eq : ∃ b, (Domain.new? 4 : Option (Domain BlsFr)) = some (dom4 b) := by
  have hcl : nextPow2 4 = 4 := by
    have : Nat.clog 2 4 = 2 := by decide +kernel
    simp [nextPow2, this]
  have hsome : (Domain.new? 4 : Option (Domain BlsFr)).isSome = true := by
    rw [Domain.new?_isSome_iff, hcl]
    have e : FftField.twoAdicity BlsFr = 32 := rfl
    rw [e]; norm_num
  obtain ⟨d, hd⟩ := Option.isSome_iff_exists.1 hsome
  obtain ⟨hv, hsz⟩ := Domain.new?_valid hd
  have h4 : d.size = 4 := by rw [hsz, hcl]
  have hlog : d.log = 2 := by
    unfold Domain.size at h4
    exact Nat.pow_right_injective (le_refl 2) (by simpa using h4)
  have hgen : d.gen = im ∨ d.gen = -im := by
    have hv' : IsPrimitiveRoot d.gen 4 := h4 ▸ hv
    have h1 : (d.gen ^ 2) ^ 2 = 1 := by rw [← pow_mul]; exact hv'.pow_eq_one
    have h2 : d.gen ^ 2 ≠ 1 := hv'.pow_ne_one_of_pos_of_lt (by norm_num) (by norm_num)
    have h3 : d.gen ^ 2 = -1 := by
      rcases mul_self_eq_one_iff.1 ((sq _).symm.trans h1) with h | h
      · exact absurd h h2
      · exact h
    have him : im ^ 2 = -1 := by decide +kernel
    rw [← him] at h3
    exact sq_eq_sq_iff_eq_or_eq_neg.1 h3
  obtain ⟨l, g⟩ := d
  dsimp only at hlog hgen
  subst hlog
  rcases hgen with rfl | rfl
  · exact ⟨false, hd⟩
  · exact ⟨true, hd⟩

theorem new?_3 (d : Domain BlsFr) (h : (Domain.new? 4 : Option (Domain BlsFr)) = some d) :
    (Domain.new? 3 : Option (Domain BlsFr)) = some d := by
  have hcl : nextPow2 3 = 4 := by
    have : Nat.clog 2 3 = 2 := by decide +kernel
    simp [nextPow2, this]
  rw [← new?_nextPow2, hcl, h]

theorem calls12_compiled {b : Bool} (h : (Domain.new? 4 : Option (Domain BlsFr)) = some (dom4 b)) :
    (build calls12).compile = some (ccOf (dom4 b) calls12) ∧
    (build forged12).compile = some (ccOf (dom4 b) forged12) := by
  constructor
  · refine (compile_build calls12 (dom4 b) (by exact new?_3 _ h) (by simp [calls12])).2 ?_
    intro call hc
    simp only [calls12, List.mem_cons, List.not_mem_nil, or_false] at hc
    rcases hc with rfl | rfl | rfl <;> simp [ValidPos, dom4, Domain.size]
  · refine (compile_build forged12 (dom4 b) (by exact new?_3 _ h) (by simp [forged12])).2 ?_
    intro call hc
    simp only [forged12, List.mem_cons, List.not_mem_nil, or_false] at hc
    rcases hc with rfl | rfl | rfl <;> simp [ValidPos, dom4, Domain.size]

/-! Intermediate values of the run, for the two candidates of the domain. -/

/-- Compiled circuit. -/
def fcc_false : CompiledCircuit BlsFr := ⟨4, ⟨[0, 1732572413036826159388134765343871389135126234382680981504, 1,
  52435875175126190477715168095149139678302417735183766433468532465555900203009],
  [26217937587563095239723870254092982918845276250263818911301829349969290592256,
  26217937587563095239723870254092982918845276250263818911301829349969290592257,
  26217937587563095239723870254092982918845276250263818911301829349969290592256,
  26217937587563095239723870254092982918845276250263818911301829349969290592257],
  [26217937587563095239723870254092982918845276250263818911301829349969290592256,
  26217937587563095241456442667129809078233411015607690300436955584351971573761,
  26217937587563095239723870254092982918845276250263818911301829349969290592257,
  26217937587563095237991297841056156759457141484919947522166703115586609610753],
  [13108968793781547619861935127046491459422638125131909455650914674984645296129,
  52435875175126190478581454301667552757996485117855702128036095582747240693761,
  39326906381344642859585805381139474378267914375395728366952744024953935888385,
  866286206518413079694067382671935694567563117191340490752],
  [39326906381344642859585805381139474378267914375395728366952744024953935888385,
  13108968793781547619861935127046491459422638125131909455650914674984645296128,
  39326906381344642859585805381139474378267914375395728366952744024953935888385,
  13108968793781547619861935127046491459422638125131909455650914674984645296128],
  [13108968793781547619861935127046491459422638125131909455650914674984645296128,
  39326906381344642859585805381139474378267914375395728366952744024953935888385,
  13108968793781547619861935127046491459422638125131909455650914674984645296128,
  39326906381344642859585805381139474378267914375395728366952744024953935888385], [],
  [39326906381344642859585805381139474378267914375395728366952744024953935888385,
  13108968793781547618129362714009665300034503359788038066515788440601964314624,
  39326906381344642859585805381139474378267914375395728366952744024953935888384,
  13108968793781547621594507540083317618810772890475780844786040909367326277632], []⟩,
  ⟨[26217937587563095238857584047574569839151208867591883216734266232777950101504,
  13108968793781547621594507540083317618810772890475780844786040909367326277632,
  26217937587563095240590156460611395998539343632935754605869392467160631083009,
  39326906381344642857853232968102648218879779610051856977817617790571254906880],
  [26217937587563095240590156460611395998539343632935754605869392467160631083009,
  26217937587563095238857584047574569839151208867591883216734266232777950101505,
  26217937587563095244055301286685048317315613163623497384139644935925993046016,
  26217937587563095242322728873648222157927478398279625995004518701543312064512],
  [0, 3], 2, 3⟩⟩
/-- Round 1. -/
def fr1_false : Round1 BlsFr BlsFr :=
  ⟨[52435875175126190479447740508185965837690552500527637822603658699938581184511,
  1732572413036826159388134765343871389135126234382680981503, 1,
  52435875175126190477715168095149139678302417735183766433468532465555900203009, 2, 1],
  [26217937587563095239723870254092982918845276250263818911301829349969290592252,
  26217937587563095239723870254092982918845276250263818911301829349969290592254,
  26217937587563095239723870254092982918845276250263818911301829349969290592256,
  26217937587563095239723870254092982918845276250263818911301829349969290592257, 4, 3],
  [26217937587563095239723870254092982918845276250263818911301829349969290592250,
  26217937587563095241456442667129809078233411015607690300436955584351971573756,
  26217937587563095239723870254092982918845276250263818911301829349969290592257,
  26217937587563095237991297841056156759457141484919947522166703115586609610753, 6, 5],
  52435875175126188192452155299575435445352662246617404164237029314799685789674, 542290,
  52435875175126188192452155299575435445352662246617404164237029314799686493004⟩
/-- Round 2. -/
def fr2_false : Round2 BlsFr BlsFr := ⟨21, 22,
  [279906806984659338802950418195778933748391853710855049278608438524621808568,
  50709783198720790977904073381341887652974033081816928942148096271958384236747,
  25938030780578435864536899162123854637946054324331664690185569989408368172079,
  27944029563968494777651558054710410450712625741195826963595042699985788151609, 9, 8, 7],
  [279906806984659338802950418195778933748391853710855049278608438524621808568,
  279906806984659347465812483379909730689065680430211994954239610438026716096,
  26497844394547754614910841346062111199744498176195973132418088710530213012434,
  26497844394547754578526820672288761852593668103974673960580437788493912400843, 9,
  27721158608589218550210156245501942226162019750122895704064,
  52435875175126190479447740508185965837690552500527637822603658699938581184506],
  42545834661668265269146471172631876645499792618444325662113342577408698111400, ⟨some [19, 0, 0, 0, 0, 0, 0,
  0], true⟩⟩
/-- Round 3. -/
def fr3_false : Round3 BlsFr BlsFr := ⟨150,
  ⟨[34381886124629136355776065370849490815889245994887022851135236128630187225701,
  8612965706726280612537632146452206092651942818651887277683767580243779669677,
  42472942264312606308039012644030040053905154282630088529503035492647853094326,
  30865556861759595969017114726259027033901952624327472976319111893667451375525,
  9140706665718298055735266875460427565983157751152159541535058032143803597460,
  29022837049770924734413322111320621016400640313200006893193582400042933836278],
  [11834809682999080493060147172817623278744232114012354129167695137445940257863,
  22526666570320176055154451602250310283282624100984210290595416171180089211807,
  44053249445040091637922584005092683108812081657514888090054022968324652859163,
  48447203175676660916981948725465333909091868898760429875208090113606837826212,
  7236757238938108399506310468214271185330506123655611809315374978686313149124,
  10414865776525650495532287513733855938712649752483994319340381929416805960079],
  [5131624794708770145721805566604338217886850936412556896716036900965103665070,
  15488176653154601194451452917007765338646006868772439249015738037445825805459,
  2892370338842423679974028534477514472329559091781406734156257129817321029319,
  26217937587562460468506043886908837090970623389383624529427707395224692061069,
  52435875175126128106840871182444227864839000121157628958059220923423247201313, 31500], 5⟩,
  32842488839057231794146637649705502339430655124643964434377857010953768173919,
  5201597322188322853305210651559802424709794626495074472160421521586590630163,
  27337564813885761178691012590818575216067983655608536084491702645288090884582, ⟨some [148, 0, 0, 0, 0, 0, 0,
  0], true⟩⟩
/-- Round 4. -/
def fr4_false : Round4 BlsFr := ⟨121,
  ⟨52435875175123121331372390552854179320241831752994068294587023843567071895634, 78670587480,
  52435875175123121331372390552854179320241831752994068294587023843671679907594,
  52435875175123134013802453982421666041388314070132636763711059524765489026652,
  4667349102321297401557146034203609633248890400783754173177028496,
  28177285955398501316695009333897865170172087973627251215538624263134995123379⟩, 0,
  [5486629831167361265678537537386523435322941867091066053378166389037141256579,
  51248768557033304727713975973749898592552088189314079344489872928668776141986,
  13412364686715646522386437392620737813394424500305804277533512070705932674645,
  29468547898348680577121733678107630478053358085850434114232081663070262320735,
  17489267223869527134183733456973941041232000400653266219375249631367899047041,
  39963700566016263220903586782200151426756527268404406446940900203483971670991], ⟨some [119, 0, 0, 0, 0, 0, 0,
  0], true⟩⟩
/-- Proof. -/
def fpf_false : Proof BlsFr BlsFr :=
  ⟨52435875175126188192452155299575435445352662246617404164237029314799685789674, 542290,
  52435875175126188192452155299575435445352662246617404164237029314799686493004,
  42545834661668265269146471172631876645499792618444325662113342577408698111400,
  32842488839057231794146637649705502339430655124643964434377857010953768173919,
  5201597322188322853305210651559802424709794626495074472160421521586590630163,
  27337564813885761178691012590818575216067983655608536084491702645288090884582,
  33581976927672286949096097070544478966477365831217571465179113660257488910570,
  44505182933951937982677944723617398213277927905603920684992263281046661814583,
  52435875175123121331372390552854179320241831752994068294587023843567071895634, 78670587480,
  52435875175123121331372390552854179320241831752994068294587023843671679907594,
  52435875175123134013802453982421666041388314070132636763711059524765489026652,
  4667349102321297401557146034203609633248890400783754173177028496,
  28177285955398501316695009333897865170172087973627251215538624263134995123379, 181, 5⟩
/-- Compiled circuit. -/
def fcc_true : CompiledCircuit BlsFr := ⟨4, ⟨[0,
  52435875175126190477715168095149139678302417735183766433468532465555900203009, 1,
  1732572413036826159388134765343871389135126234382680981504],
  [26217937587563095239723870254092982918845276250263818911301829349969290592256,
  26217937587563095239723870254092982918845276250263818911301829349969290592257,
  26217937587563095239723870254092982918845276250263818911301829349969290592256,
  26217937587563095239723870254092982918845276250263818911301829349969290592257],
  [26217937587563095239723870254092982918845276250263818911301829349969290592256,
  26217937587563095237991297841056156759457141484919947522166703115586609610753,
  26217937587563095239723870254092982918845276250263818911301829349969290592257,
  26217937587563095241456442667129809078233411015607690300436955584351971573761],
  [13108968793781547619861935127046491459422638125131909455650914674984645296129,
  866286206518413079694067382671935694567563117191340490752,
  39326906381344642859585805381139474378267914375395728366952744024953935888385,
  52435875175126190478581454301667552757996485117855702128036095582747240693761],
  [39326906381344642859585805381139474378267914375395728366952744024953935888385,
  13108968793781547619861935127046491459422638125131909455650914674984645296128,
  39326906381344642859585805381139474378267914375395728366952744024953935888385,
  13108968793781547619861935127046491459422638125131909455650914674984645296128],
  [13108968793781547619861935127046491459422638125131909455650914674984645296128,
  39326906381344642859585805381139474378267914375395728366952744024953935888385,
  13108968793781547619861935127046491459422638125131909455650914674984645296128,
  39326906381344642859585805381139474378267914375395728366952744024953935888385], [],
  [39326906381344642859585805381139474378267914375395728366952744024953935888385,
  13108968793781547621594507540083317618810772890475780844786040909367326277632,
  39326906381344642859585805381139474378267914375395728366952744024953935888384,
  13108968793781547618129362714009665300034503359788038066515788440601964314624], []⟩,
  ⟨[26217937587563095240590156460611395998539343632935754605869392467160631083008,
  13108968793781547618129362714009665300034503359788038066515788440601964314624,
  26217937587563095238857584047574569839151208867591883216734266232777950101505,
  39326906381344642861318377794176300537656049140739599756087870259336616869888],
  [26217937587563095238857584047574569839151208867591883216734266232777950101505,
  26217937587563095240590156460611395998539343632935754605869392467160631083009,
  26217937587563095235392439221500917520374939336904140438464013764012588138496,
  26217937587563095237125011634537743679763074102248011827599139998395269120000],
  [0, 3], 2, 3⟩⟩
/-- Round 1. -/
def fr1_true : Round1 BlsFr BlsFr :=
  ⟨[52435875175126190479447740508185965837690552500527637822603658699938581184511,
  52435875175126190477715168095149139678302417735183766433468532465555900203008, 1,
  1732572413036826159388134765343871389135126234382680981504, 2, 1],
  [26217937587563095239723870254092982918845276250263818911301829349969290592252,
  26217937587563095239723870254092982918845276250263818911301829349969290592254,
  26217937587563095239723870254092982918845276250263818911301829349969290592256,
  26217937587563095239723870254092982918845276250263818911301829349969290592257, 4, 3],
  [26217937587563095239723870254092982918845276250263818911301829349969290592250,
  26217937587563095237991297841056156759457141484919947522166703115586609610748,
  26217937587563095239723870254092982918845276250263818911301829349969290592257,
  26217937587563095241456442667129809078233411015607690300436955584351971573761, 6, 5],
  2286995585208610530392337890253910233658366629385138895775721, 542290,
  2286995585208610530392337890253910233658366629385138896479051⟩
/-- Round 2. -/
def fr2_true : Round2 BlsFr BlsFr := ⟨19, 20,
  [49819768604566749343020358397642397701035619863556011863670788298265991595219,
  33810333830382342987100091192549469875704568941526725091860893032022470235836,
  28834044158122536409070128212336248083874769428769001263802098204912818830102,
  44843478932306942699152643722029781852456699267731175248477196564614462892359, 9, 8, 7],
  [49819768604566749343020358397642397701035619863556011863670788298265991595219,
  49819768604566749337822641158531919222871215567524397696265409595117948650715,
  23601831017003654070377612295849717753815783071758636558801560495025762354411,
  23601831017003654103296488143549414782190343613292192952368958948296701002980, 9,
  52435875175126190451726581899596747287480396255025695596441638949815685480449,
  52435875175126190479447740508185965837690552500527637822603658699938581184506],
  45042530519197299180114173308621634821550073812096355521708777621253970552934, ⟨some [17, 0, 0, 0, 0, 0, 0,
  0], true⟩⟩
/-- Round 3. -/
def fr3_true : Round3 BlsFr BlsFr := ⟨82,
  ⟨[33657490647586673104469510742482512426004560125244715105146610172478103470234,
  38203686712415566339744584810571888651328570671103339982785608578157209048570,
  28618997354325653539134483416191919602611547492729854032921976149061602418700,
  14623182651239501376657613135061137227142324152463255000423282457805105946199,
  12183023465426062866315394286213360851898169391923079520039678114155734417449,
  3440748858896388598239634246506522704124862792282219446878230834520136237061],
  [43057346389165052586118638151406100278422803713021416037689032174319864649915,
  14324605270916061366937657882156364850188608553960969579032907338789099151734,
  46867762481157972896026399447014688460366456428913355353719510247094780065964,
  22428848451363664937641720443759082429423965679185235264477577680662693376835,
  45344662392147204546771092815775720504738338587896192782321890705997001627481,
  2722741349263713159686280026801327739966068336825548531346087336410755909241],
  [37393262394413639089827031777752334282713083450437062655178370230364254193066,
  29232147331901521154700340037200737128914008411938866817022012433865961568280,
  14161098610201759244893791642917324829749515719944723673792889490592166453493,
  26217937587563427330541139087747083639576423536812331386622804650346420385499,
  34097025088564738816758492181967388938179284292651161716086624, 17220], 5⟩,
  24803215138569112984058872855475913178110862939918377717877609949178256085098,
  47608876113046164019651641071997348811672552728379962230472665085297966319478,
  1222745463199943907600304841235316888874977261748455732062447177615767894507, ⟨some [80, 0, 0, 0, 0, 0, 0, 0],
  true⟩⟩
/-- Round 4. -/
def fr4_true : Round4 BlsFr := ⟨168, ⟨8214929723807241908997103017026413812214192175781044232706919830,
  26217937587563095239723870254092982918845276250263818911301829350373962789944,
  26217937587571310169447677496001980021862302664076033103477610394740497531174,
  26217937587571285720252070926829631816198561514034925323143753902863902438262,
  26217937587550650302890243916070472980629986005537951179262289248371559078965,
  5573440723245075963651740552403117403743242172582502995677908128980321345058⟩, 0,
  [49803995354751372323300234251903865867837194385072969247139874948235670839746,
  23106648350987813889978019277356795192270951895736861399472508313426544834029,
  32771188654094213152319561544363077740826958755981378330093320166499396491797,
  51455804736080724993159143640109963500455644390145758880114120123891722158428,
  39627289449495472146968337191490123435448799232259375347281405027643393652417,
  44586501723688475156307856382709630515606247881944820087232786140342497516271], ⟨some [166, 0, 0, 0, 0, 0, 0,
  0], true⟩⟩
/-- Proof. -/
def fpf_true : Proof BlsFr BlsFr := ⟨2286995585208610530392337890253910233658366629385138895775721, 542290,
  2286995585208610530392337890253910233658366629385138896479051,
  45042530519197299180114173308621634821550073812096355521708777621253970552934,
  24803215138569112984058872855475913178110862939918377717877609949178256085098,
  47608876113046164019651641071997348811672552728379962230472665085297966319478,
  1222745463199943907600304841235316888874977261748455732062447177615767894507,
  9791062704208304638421662486941572406314649998280068401099261310177581862274,
  18995205346855332128752304582427319665780359679185576138754097041719414819580,
  8214929723807241908997103017026413812214192175781044232706919830,
  26217937587563095239723870254092982918845276250263818911301829350373962789944,
  26217937587571310169447677496001980021862302664076033103477610394740497531174,
  26217937587571285720252070926829631816198561514034925323143753902863902438262,
  26217937587550650302890243916070472980629986005537951179262289248371559078965,
  5573440723245075963651740552403117403743242172582502995677908128980321345058, 175, 5⟩
/-- Transcript. -/
def fch_false : ChallengeGenerator := ⟨some [224, 0, 0, 0, 0, 0, 0, 0], false⟩
/-- Challenge. -/
def fvc_false : BlsFr × ChallengeGenerator := ⟨226, ⟨some [224, 0, 0, 0, 0, 0, 0, 0], true⟩⟩
/-- Linearisation. -/
def frx_false : DP BlsFr := [32274002843226097265687703436986215412345450065144783472449218762459053665136,
  5228548518196541655892130658465645914993794978854199454291768571314253906021,
  32079773491284945399649994166331719013406036101783040650112416048904699441158,
  20793095643998006662452281949054804774105586493084578449756406351592861349223,
  9524948333036671096412089053302689991355740098172909497414159856114697855604,
  29813161216220198469808966938782760359794064630185450009889863055695687509076,
  34559178506935726907795570987215885747042658491148913438913861827084459350111]
/-- Opening numerator. -/
def fwp_false : DP BlsFr := [29530240140978663315291223091263585661679961349341359856913729432889790356756,
  5228548011992024876544674805258238451223237315314847035745226214717910898017,
  32079776047266767848137216155330488742138703199811232347847052011341934958946,
  20793097171691280070196045794328917735123859035765171051659319579233660897873,
  9524948333036671096412089053302689991355740098172909497414159856114767319416,
  29813161216220198469808966938782760359794064630185450009889863055695745378410,
  34559178506935726907795570987215885747042658491148913438913861827084459350111]
/-- Opening. -/
def fw_false : DP BlsFr := [47858280200810152726474446060474203490264226167018400317785887489754485298547,
  22886737531366777130423241964304844533875617511397857190557280278279692528886,
  22458450170170759621599739935823508920261534250735733815025623807138379993096,
  26015023665339263705109653922583905301211329134269659769583353935737351984843,
  16603746545347915957253815737027668736711542016992950310174448137828831980801,
  34559178506935726907795570987215885747042658491148913438913861827084459350111]
/-- Shifted numerator. -/
def fwwp_false : DP BlsFr := [24538496026712348501555681592483879601266856380611241656343642875328207869702,
  50709783198720790977904073381341887652974033081816928942148096271958384236747,
  25938030780578435864536899162123854637946054324331664690185569989408368172079,
  27944029563968494777651558054710410450712625741195826963595042699985788151609, 9, 8, 7]
/-- Shifted opening. -/
def fww_false : DP BlsFr := [27757425655061567092192406153238182742858189986476495897150499535655232740010,
  18287244722948641385637977889923557718627478609309900824905230810663532981863,
  27944029563925527543161706589889260350287761702159605912763252151633126841777,
  3354260191639295444575428905705735009365604389764870380089266,
  2934977667684383514003500292492518133194903841044261582667784, 7]
/-- Transcript. -/
def fch_true : ChallengeGenerator := ⟨some [125, 0, 0, 0, 0, 0, 0, 0], false⟩
/-- Challenge. -/
def fvc_true : BlsFr × ChallengeGenerator := ⟨127, ⟨some [125, 0, 0, 0, 0, 0, 0, 0], true⟩⟩
/-- Linearisation. -/
def frx_true : DP BlsFr := [9366387614478210550868260271732250533344192870435237310596696019090695026318,
  51179446362774750727401891556115770547346741992463532572075276839966073433575,
  7520343842239276595548084198774677919071310499912695091740148411226817051925,
  34640803056916868637053044188498074874110496801277066245896912265273323195080,
  35572799474254645223098731569031502598996628255284727372588872236785969482180,
  16792756114426191021806039624016857924208816616687490249190690103940265409128,
  50729643381883276355807982995521926737721663306390842747928740937057523819120]
/-- Opening numerator. -/
def fwp_true : DP BlsFr := [9775400468456699646156398233370827094457519370768714068593618400522713813460,
  38070477597159618190374180173653204536850990798147810589804741933610809772777,
  7520343698910498365629986396502316694651099323512963806593869036028769975444,
  47749771765290633767792710222254383414476163657848241457055568301665832037192,
  35572799474254645223098731569031502598996628255284727372588872236785981837248,
  16792756114426191021806039624016857924208816616687490249190690103940275699557,
  50729643381883276355807982995521926737721663306390842747928740937057523819120]
/-- Opening. -/
def fw_true : DP BlsFr := [3687232747815818964923907665862266446177554229973588927396727892849644407147,
  29134458461979274439539507947986249111025229157627522224180570855675389678444,
  45073691309412144078061810444822994125260795773274371457574485444111918513529,
  4665845518875085520845150046698560108786564997757980341306986890723361930024,
  44761065900373761127013220545574084155578747004871744639426458139554125420611,
  50729643381883276355807982995521926737721663306390842747928740937057523819120]
/-- Shifted numerator. -/
def fwwp_true : DP BlsFr := [44246327881321673379368617845239280297292377690973508867992880169285670250161,
  33810333830382342987100091192549469875704568941526725091860893032022470235836,
  28834044158122536409070128212336248083874769428769001263802098204912818830102,
  44843478932306942699152643722029781852456699267731175248477196564614462892359, 9, 8, 7]
/-- Shifted opening. -/
def fww_true : DP BlsFr := [33241611764714653727722681623938616555442812781621938910639140231350362837369,
  48852946611230567026023960831700638423957704301102780853726870812607848650114,
  44843478932421950550997283548008562185868506750020600440133301676814845441863,
  52435875175126185822293094265197249402384303256201343827384340679292102704202,
  52435875175126186404437425045570838956797584411742130576786755431872912687113, 7]

deriving instance DecidableEq for GateConstraints
deriving instance DecidableEq for CopyConstraints
deriving instance DecidableEq for CompiledCircuit
deriving instance DecidableEq for Round1
deriving instance DecidableEq for ChallengeGenerator
deriving instance DecidableEq for Round2
deriving instance DecidableEq for SlicePoly
deriving instance DecidableEq for Round3
deriving instance DecidableEq for Bars
deriving instance DecidableEq for Round4
deriving instance DecidableEq for Proof

section chain
variable {F G1 G2 GT : Type} [FftField F] [DecidableEq F] [AddCommGroup G1] [Module F G1] [AddCommGroup G2] [Module F G2]

theorem generateProof_of {env : Env F G1} {T : List UInt8 → List UInt8} {cc : CompiledCircuit F} {srs : Srs G1 G2}
    {b : Blinders F} {d : Domain F} {r1 : Round1 F G1} {r2 : Round2 F G1} {r3 : Round3 F G1} {r4 : Round4 F}
    {p : Proof F G1} {n : ℕ} (hn : cc.size = n) (hd : Domain.new? n = some d) (h1 : round1 cc srs b d = some r1)
    (h2 : round2 env cc srs b d r1 = some r2) (h3 : round3 env cc srs d r1 r2 = some r3)
    (h4 : round4 env cc d r1 r2 r3 = some r4) (h5 : round5 env cc srs d r1 r2 r3 r4 = some p) :
    generateProof env T cc srs b = some p := by
  unfold generateProof
  simp [hn, hd, h1, h2, h3, h4, h5]

theorem round5_of {env : Env F G1} {cc : CompiledCircuit F} {srs : Srs G1 G2}
    {d : Domain F} {r1 : Round1 F G1} {r2 : Round2 F G1} {r3 : Round3 F G1} {r4 : Round4 F}
    {ch3 : ChallengeGenerator} {vc uc : F × ChallengeGenerator} {rx wp w wwp ww : DP F} {wC wwC : G1}
    (h1 : feedBars env env.sha256 srs r4.bar r4.ch = some ch3) (h2 : ch3.generate1 env = some vc)
    (h3 : computeLinearisation r2.beta r2.gamma r3.alpha r4.ev r4.bar r4.piE r4.tc r2.zx r1.ax r1.bx
      r1.cx r2.zwx d cc = some rx)
    (h4 : openingPoly cc vc.1 r4.bar rx r1.ax r1.bx r1.cx (Ark.eval rx r4.ev) = some wp)
    (h5 : divideRoot wp r4.ev = some w) (h6 : polySubPara r2.zx r4.bar.zw = some wwp)
    (h7 : divideRoot wwp (r4.ev * d.element 1) = some ww) (h8 : commit srs w = some wC)
    (h9 : commit srs ww = some wwC)
    (h10 : ((vc.2.feed env env.sha256 wC).feed env env.sha256 wwC).generate1 env = some uc) :
    round5 env cc srs d r1 r2 r3 r4 = some
      { aC := r1.aC, bC := r1.bC, cC := r1.cC, zC := r2.zC, tLoC := r3.tLoC, tMidC := r3.tMidC,
         tHiC := r3.tHiC, wC := wC, wwC := wwC, barA := r4.bar.a, barB := r4.bar.b, barC := r4.bar.c,
         barS1 := r4.bar.s1, barS2 := r4.bar.s2, barZw := r4.bar.zw, u := uc.1, degree := r3.sp.degree } := by
  unfold round5
  simp [h1, h2, h3, h4, h5, h6, h7, h8, h9, h10]

end chain

theorem fcc_false_eq : ccOf (dom4 false) forged12 = fcc_false := by decide +kernel
theorem fr1_false_eq : round1 fcc_false (Srs.newFromSecret (trivialGroups BlsFr) 11 4) exBl (dom4 false) =
    some fr1_false := by decide +kernel
theorem fr2_false_eq : round2 exEnv fcc_false (Srs.newFromSecret (trivialGroups BlsFr) 11 4) exBl (dom4 false) fr1_false =
    some fr2_false := by decide +kernel
theorem fr3_false_eq : round3 exEnv fcc_false (Srs.newFromSecret (trivialGroups BlsFr) 11 4) (dom4 false) fr1_false fr2_false =
    some fr3_false := by decide +kernel
theorem fr4_false_eq : round4 exEnv fcc_false (dom4 false) fr1_false fr2_false fr3_false = some fr4_false := by decide +kernel
theorem fch_false_eq : feedBars exEnv exEnv.sha256 (Srs.newFromSecret (trivialGroups BlsFr) 11 4) fr4_false.bar fr4_false.ch =
    some fch_false := by decide +kernel
theorem fvc_false_eq : fch_false.generate1 exEnv = some fvc_false := by decide +kernel
theorem frx_false_eq : computeLinearisation fr2_false.beta fr2_false.gamma fr3_false.alpha fr4_false.ev fr4_false.bar fr4_false.piE
    fr4_false.tc fr2_false.zx fr1_false.ax fr1_false.bx fr1_false.cx fr2_false.zwx (dom4 false) fcc_false = some frx_false := by decide +kernel
theorem fwp_false_eq : openingPoly fcc_false fvc_false.1 fr4_false.bar frx_false fr1_false.ax fr1_false.bx fr1_false.cx
    (Ark.eval frx_false fr4_false.ev) = some fwp_false := by decide +kernel
theorem fw_false_eq : divideRoot fwp_false fr4_false.ev = some fw_false := by decide +kernel
theorem fwwp_false_eq : polySubPara fr2_false.zx fr4_false.bar.zw = some fwwp_false := by decide +kernel
theorem fww_false_eq : divideRoot fwwp_false (fr4_false.ev * (dom4 false).element 1) = some fww_false := by decide +kernel
theorem fwC_false_eq : commit (Srs.newFromSecret (trivialGroups BlsFr) 11 4) fw_false = some fpf_false.wC := by decide +kernel
theorem fwwC_false_eq : commit (Srs.newFromSecret (trivialGroups BlsFr) 11 4) fww_false = some fpf_false.wwC := by decide +kernel
theorem fuc_false_eq : ((fvc_false.2.feed exEnv exEnv.sha256 fpf_false.wC).feed exEnv exEnv.sha256 fpf_false.wwC).generate1
    exEnv = some (fpf_false.u,
      ⟨((fvc_false.2.feed exEnv exEnv.sha256 fpf_false.wC).feed exEnv exEnv.sha256 fpf_false.wwC).data, true⟩) := by
  decide +kernel
theorem fpf_false_eq : round5 exEnv fcc_false (Srs.newFromSecret (trivialGroups BlsFr) 11 4) (dom4 false)
    fr1_false fr2_false fr3_false fr4_false = some fpf_false :=
  round5_of fch_false_eq fvc_false_eq frx_false_eq fwp_false_eq fw_false_eq fwwp_false_eq fww_false_eq fwC_false_eq fwwC_false_eq
    fuc_false_eq
theorem fpf_false_ev : (fpf_false.challenges exEnv exEnv.sha256 1).ev ≠ 1 := by decide +kernel

theorem fcc_true_eq : ccOf (dom4 true) forged12 = fcc_true := by decide +kernel
theorem fr1_true_eq : round1 fcc_true (Srs.newFromSecret (trivialGroups BlsFr) 11 4) exBl (dom4 true) =
    some fr1_true := by decide +kernel
theorem fr2_true_eq : round2 exEnv fcc_true (Srs.newFromSecret (trivialGroups BlsFr) 11 4) exBl (dom4 true) fr1_true =
    some fr2_true := by decide +kernel
theorem fr3_true_eq : round3 exEnv fcc_true (Srs.newFromSecret (trivialGroups BlsFr) 11 4) (dom4 true) fr1_true fr2_true =
    some fr3_true := by decide +kernel
theorem fr4_true_eq : round4 exEnv fcc_true (dom4 true) fr1_true fr2_true fr3_true = some fr4_true := by decide +kernel
theorem fch_true_eq : feedBars exEnv exEnv.sha256 (Srs.newFromSecret (trivialGroups BlsFr) 11 4) fr4_true.bar fr4_true.ch =
    some fch_true := by decide +kernel
theorem fvc_true_eq : fch_true.generate1 exEnv = some fvc_true := by decide +kernel
theorem frx_true_eq : computeLinearisation fr2_true.beta fr2_true.gamma fr3_true.alpha fr4_true.ev fr4_true.bar fr4_true.piE
    fr4_true.tc fr2_true.zx fr1_true.ax fr1_true.bx fr1_true.cx fr2_true.zwx (dom4 true) fcc_true = some frx_true := by decide +kernel
theorem fwp_true_eq : openingPoly fcc_true fvc_true.1 fr4_true.bar frx_true fr1_true.ax fr1_true.bx fr1_true.cx
    (Ark.eval frx_true fr4_true.ev) = some fwp_true := by decide +kernel
theorem fw_true_eq : divideRoot fwp_true fr4_true.ev = some fw_true := by decide +kernel
theorem fwwp_true_eq : polySubPara fr2_true.zx fr4_true.bar.zw = some fwwp_true := by decide +kernel
theorem fww_true_eq : divideRoot fwwp_true (fr4_true.ev * (dom4 true).element 1) = some fww_true := by decide +kernel
theorem fwC_true_eq : commit (Srs.newFromSecret (trivialGroups BlsFr) 11 4) fw_true = some fpf_true.wC := by decide +kernel
theorem fwwC_true_eq : commit (Srs.newFromSecret (trivialGroups BlsFr) 11 4) fww_true = some fpf_true.wwC := by decide +kernel
theorem fuc_true_eq : ((fvc_true.2.feed exEnv exEnv.sha256 fpf_true.wC).feed exEnv exEnv.sha256 fpf_true.wwC).generate1
    exEnv = some (fpf_true.u,
      ⟨((fvc_true.2.feed exEnv exEnv.sha256 fpf_true.wC).feed exEnv exEnv.sha256 fpf_true.wwC).data, true⟩) := by
  decide +kernel
theorem fpf_true_eq : round5 exEnv fcc_true (Srs.newFromSecret (trivialGroups BlsFr) 11 4) (dom4 true)
    fr1_true fr2_true fr3_true fr4_true = some fpf_true :=
  round5_of fch_true_eq fvc_true_eq frx_true_eq fwp_true_eq fw_true_eq fwwp_true_eq fww_true_eq fwC_true_eq fwwC_true_eq
    fuc_true_eq
theorem fpf_true_ev : (fpf_true.challenges exEnv exEnv.sha256 1).ev ≠ 1 := by decide +kernel

theorem forged_run {b : Bool} (hb : (Domain.new? 4 : Option (Domain BlsFr)) = some (dom4 b)) :
    ∃ p, generateProof exEnv exEnv.sha256 (ccOf (dom4 b) forged12) (Srs.newFromSecret (trivialGroups BlsFr) 11 4)
      exBl = some p ∧ (p.challenges exEnv exEnv.sha256 1).ev ≠ 1 := by
  cases b
  · refine ⟨fpf_false, ?_, fpf_false_ev⟩
    rw [fcc_false_eq]
    exact generateProof_of (n := 4) rfl hb fr1_false_eq fr2_false_eq fr3_false_eq fr4_false_eq fpf_false_eq
  · refine ⟨fpf_true, ?_, fpf_true_ev⟩
    rw [fcc_true_eq]
    exact generateProof_of (n := 4) rfl hb fr1_true_eq fr2_true_eq fr3_true_eq fr4_true_eq fpf_true_eq

/-- **C62** is false of the whole proof system: there is an accepted proof of `1=2`. -/
theorem C62_accepted_proof_of_false_equation : ∃ (cc cc' : CompiledCircuit BlsFr) (p : Proof BlsFr BlsFr),
    (parse asciiTables noWitness "1=2".toList).bind Circuit.compile = some cc ∧
    generateProof exEnv exEnv.sha256 cc' (Srs.newFromSecret (trivialGroups BlsFr) 11 4) exBl = some p ∧
    verify exEnv exEnv.sha256 (trivialGroups BlsFr) cc (Srs.newFromSecret (trivialGroups BlsFr) 11 4) p =
      some (.ok ()) := by
  obtain ⟨b, hb⟩ := dom4_eq
  obtain ⟨h1, h2⟩ := calls12_compiled hb
  obtain ⟨p, hgen, hev⟩ := forged_run hb
  have hpub : forged12.map GateCall.gate = calls12.map GateCall.gate := by decide +kernel
  have hsz : (ccOf (dom4 b) forged12).size ≤ 4 + 3 := by show 4 ≤ 7; omega
  generalize ccOf (dom4 b) calls12 = cc at *
  generalize ccOf (dom4 b) forged12 = cc' at *
  refine ⟨cc, cc', p, ?_, hgen, ?_⟩
  · rw [calls12_eq, Option.bind_some]; exact h1
  · obtain ⟨cc'', k1, k2, k3, k4⟩ := compile_samePublic hpub h1
    rw [h2, Option.some.injEq] at k1
    subst k1
    rw [C54_ignores_witness exEnv exEnv.sha256 (trivialGroups BlsFr) cc cc' _ p k2.symm
      ⟨k3.1.symm, k3.2.1.symm, k3.2.2.1.symm, k3.2.2.2.1.symm, k3.2.2.2.2.1.symm, k3.2.2.2.2.2.symm⟩ k4.symm]
    exact C49_compiled exEnv exEnv.sha256 exEnv_len (trivialGroups BlsFr) 11 4 forged12 _ h2 hsz exBl p hgen hev

end Verif.Plonk
