import Verif.Spec.CashAddr

/-! # Tables and the elimination check for the checksum code (computed by the kernel)

Helper functions of `Proofs/CashErrors`, written so that the kernel evaluates them quickly. -/

namespace BCash.CashErr
open BCash.Spec

/-- Multiplication table of GF(32): entry `a * 32 + b`, five bits each. -/
def gfTab : Nat := 170575497088385866309495048520714957380600658745106817457907002006165059264402348518545436315948738620530001973479129259417330783079320045492870791336740917417997539073595942494084680840773905643691617784382371098317273694454083872621675892930455719832584944306732121183285165423555128852533212983569373117056577568929733343057842933687408275509888419647425488343521288249610725918807897046579701304831786111967063276526989227406592211057299719436372983757302820403429326028502988126376410006279407405522853577801202207594687372786198213027365204387148140661062765864264459673074305729859537647144645870189160062958988034046867374716573865863937502319256416483281625296170300896893750933358816940870331647492087404741454552867455673149932086773134799430142725372709855006342448722897153170480131549352117850663855995536423452699835794530650847753262806857017428355077585871315315441272004383272334817402981959259575098313782921269951353185522352167737523273267242098846789906539705525674484366943382142478591837223918990183667616215317137716598623241078775962304610189524861678640231767925487352334597379220834466127520495714024169515189003270275108582186286190636544094510610440139447761684051573851652295413420932037157047735307333449074344246461522860422119716979999918563664650130067227330830022449318361455307762556441587217863336006353279214088011175748800171941091061982764155864281001589277060438163360583343743759399595222976768604423651559390400002241059670511270323864474395152120538401210576760763310816518522019455356435016187904
/-- Division table. -/
def gfDivTab : Nat := 10724125090644800730961641896631208078309108515668721396416092378414135050919763728875311116799652200970574331870891089735022087068979067058258067471116153501504998696302892495670264793623126900498410300305974577841292742810917522414280970259140180451036145106654262483514372892397044071372018082646705771212824301207958363833524745282084470015793080208596506425745649410531369165644520392155391768149533547228279605252183008526423331512086829776902761518742201409427862614877779983208323845658844237978132003907477869928831617348831244323267316160991850370649819980752720351338582961416671344798022067187929656412959776798047986395729316395364666732251164119909990103291251639851149643644356478924964100389831428783676774641204294664644431315824214981043573554688281960859565932185830516277077758497493462267818578315567773950213808874271996283505522621839592853578043002901518172005960774041285888223168494990755707594182723434963516374025308301209029947341334856966825853855998390704472769583281824565959422288569784320284585036746619369622056975482924655116366579437133445604318520759714663943299088861236735574203092862797330989171996611840663658990344288908810307570063949384444750629732459499185558237455764841704047177715546933555425784758320644105081461993846293007068519108301222927227557397221723994545748921233377186128301892087436918041955498296174108225999195820350666272938699180895314000373119394669680709617483178353360138411177148436845746247263362161284804431149512298981486669891084951159065379454992058967445807933947904
/-- Product. -/
def gm (a b : Nat) : Nat := Nat.mod (Nat.shiftRight gfTab (Nat.add (Nat.mul 160 a) (Nat.mul 5 b))) 32
/-- Quotient. -/
def gd (a b : Nat) : Nat := Nat.mod (Nat.shiftRight gfDivTab (Nat.add (Nat.mul 160 a) (Nat.mul 5 b))) 32
/-- `w + s * c`. -/
def axpy (s : Nat) : List Nat → List Nat → List Nat
  | c :: cs, w :: ws => Nat.xor w (gm s c) :: axpy s cs ws
  | _, _ => []
/-- `w` modulo `c`: the first non-zero position of `c` is removed. -/
def elim : List Nat → List Nat → List Nat
  | c0 :: c, w0 :: w => cond (Nat.beq c0 0) (w0 :: elim c w) (axpy (gd w0 c0) c w)
  | _, _ => []
/-- Not zero. -/
def nz : List Nat → Bool
  | [] => false
  | c :: cs => cond (Nat.beq c 0) (nz cs) true
/-- Digits divided by `c0`, collected in a number. -/
def packDiv (c0 : Nat) : Nat → List Nat → Nat
  | acc, [] => acc
  | acc, c :: cs => packDiv c0 (Nat.add (Nat.mul 32 acc) (gd c c0)) cs
/-- Normal form up to scaling; 0 for the zero vector. -/
def norm : List Nat → Nat
  | [] => 0
  | c :: cs => cond (Nat.beq c 0) (norm cs) (packDiv c 1 cs)
/-- Not in the list. -/
def notIn (x : Nat) : List Nat → Bool
  | [] => true
  | y :: ys => cond (Nat.beq x y) false (notIn x ys)
/-- No two are equal. -/
def distinct : List Nat → Bool
  | [] => true
  | x :: xs => notIn x xs && distinct xs
/-- Makes the kernel evaluate `x` first. -/
def force (x : Nat) (k : Nat → List Nat) : List Nat := Nat.casesOn x (k 0) (fun n => k (Nat.succ n))
/-- The normal forms. -/
def norms : List (List Nat) → List Nat
  | [] => []
  | c :: cs => force (norm c) (fun n => n :: norms cs)
/-- Any two columns are independent: no two have the same normal form. -/
def check2 (cs : List (List Nat)) : Bool := let ns := norms cs; distinct (0 :: ns)
/-- Every column, and the later ones modulo it. -/
def checkAll (f : List (List Nat) → Bool) : List (List Nat) → Bool
  | [] => true
  | c :: cs => nz c && (f (cs.map (elim c)) && checkAll f cs)
/-- Any `d + 2` columns are independent. -/
def check : Nat → List (List Nat) → Bool
  | 0 => check2
  | d + 1 => checkAll (check d)
/-- The columns of the parity check matrix: remainders of the powers of x. -/
def cols : Nat → List Nat → List (List Nat) | 0, _ => [] | n+1, c => c :: cols n (remStep c 0)

set_option maxRecDepth 100000 in
/-- The columns of x, ..., x^55 modulo that of 1: any four are independent. -/
theorem columns_checked : check 2 ((cols 55 (remStep [0, 0, 0, 0, 0, 0, 0, 1] 0)).map
    (elim [0, 0, 0, 0, 0, 0, 0, 1])) = true := by decide +kernel

end BCash.CashErr
