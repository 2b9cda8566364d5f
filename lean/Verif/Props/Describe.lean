import Verif.Lemmas.Describe3
/-!
# Descriptions of features: theorems
-/
namespace FT
open Spec

namespace DescribeExample

/-- `Sum` -/
def sum : GPrim := ⟨1, some "sum", "Sum", some (.inl ['t', 'h', 'e', ' ', 's', 'u', 'm', ' ', 'o', 'f', ' ', '{', '}']), none⟩
/-- `NMostCommon(n=2)` -/
def nMost : GPrim := ⟨2, some "n_most_common", "NMostCommon",
  some (.inr [['t', 'h', 'e', ' ', '2', ' ', 'm', 'o', 's', 't', ' ', 'c', 'o', 'm', 'm', 'o', 'n'], ['t', 'h', 'e', ' ', '{', 'n', 't', 'h', '_', 's', 'l', 'i', 'c', 'e', '}', ' ', 'm', 'o', 's', 't', ' ', 'c', 'o', 'm', 'm', 'o', 'n', ' ', 'o', 'f', ' ', '{', '}']]), none⟩
/-- a primitive without template -/
def mine : GPrim := ⟨3, some "mine", "Mine", none, none⟩
/-- `EqualScalar(value="phone")` -/
def isPhone : GPrim := ⟨4, some "equal_scalar", "EqualScalar", some (.inl ['w', 'h', 'e', 't', 'h', 'e', 'r', ' ', '{', '}', ' ', 'e', 'q', 'u', 'a', 'l', 's', ' ', 'p', 'h', 'o', 'n', 'e']), some "phone"⟩
/-- `NotEqualScalar(value="phone")` -/
def isNotPhone : GPrim := ⟨5, some "not_equal_scalar", "NotEqualScalar", some (.inl ['w', 'h', 'e', 't', 'h', 'e', 'r', ' ', '{', '}', ' ', 'd', 'o', 'e', 's', ' ', 'n', 'o', 't', ' ', 'e', 'q', 'u', 'a', 'l', ' ', 'p', 'h', 'o', 'n', 'e']), some "phone"⟩
/-- `Equal` -/
def equal : GPrim := ⟨6, some "equal", "Equal", some (.inl ['w', 'h', 'e', 't', 'h', 'e', 'r', ' ', '{', '}', ' ', 'e', 'q', 'u', 'a', 'l', 's', ' ', '{', '}']), none⟩
/-- `EqualScalar(value="{")` -/
def isBrace : GPrim := ⟨7, some "equal_scalar", "EqualScalar", some (.inl ['w', 'h', 'e', 't', 'h', 'e', 'r', ' ', '{', '}', ' ', 'e', 'q', 'u', 'a', 'l', 's', ' ', '{']), some "{"⟩
/-- `CumSum` -/
def cumSum : GPrim := ⟨8, some "cum_sum", "CumSum", some (.inl ['t', 'h', 'e', ' ', 'c', 'u', 'm', 'u', 'l', 'a', 't', 'i', 'v', 'e', ' ', 's', 'u', 'm', ' ', 'o', 'f', ' ', '{', '}']), none⟩

def amount : GFeat := .mk (.identity "the \"amount\"") "transactions" "amount" [] []
def device : GFeat := .mk (.identity "the \"device\"") "transactions" "device" [] []
def onPhone : GFeat := .mk (.transform isPhone) "transactions" "device = phone" [device] []
def offPhone : GFeat := .mk (.transform isNotPhone) "transactions" "device != phone" [device] []
/-- `SUM(transactions.amount WHERE device = phone)` of customers -/
def spent (wh : GFeat) : GFeat := .mk (.agg sum "transactions" "customer_id" none) "customers" "SUM(transactions.amount)" [amount] [wh]
/-- `customers.SUM(...)` of sessions -/
def ofParent : GFeat := .mk (.direct "customers") "sessions" "customers.SUM(transactions.amount)" [spent onPhone] []
/-- no custom descriptions and templates -/
def none : GCustom := ⟨[], [], [], []⟩

end DescribeExample

/-- **C65** a template gives the text in which `{}` stands for the inputs in order, `{0}` for the input with this number,
`{nth_slice}` for the ordinal of the output, `{{` and `}}` for braces and everything else for itself. -/
theorem C65_template {ps : List Piece} {inputs : List String} {nth : Option String} {s : String} (hw : WellNumbered ps)
    (h : Filled inputs nth 0 ps s.toList) : format (source ps) (inputs.map some) nth = .ok s :=
  format_gives ⟨ps, hw, rfl, h⟩

/-- The template of `NMostCommon` for one output. -/
example : Filled ["the \"device\""] (some "2nd") 0 [.nth, .char ':', .next] "2nd:the \"device\"".toList ∧
    WellNumbered [.nth, .char ':', .next] ∧ source [.nth, .char ':', .next] = ['{', 'n', 't', 'h', '_', 's', 'l', 'i', 'c', 'e', '}', ':', '{', '}'] := by
  refine ⟨?_, ⟨.inr (by simp), by simp⟩, by decide +kernel⟩
  have : "2nd:the \"device\"".toList = "2nd".toList ++ (':' :: ("the \"device\"".toList ++ [])) := by decide +kernel
  rw [this]
  exact .nth rfl (.char ':' (.next rfl (.nil _)))

/-- **C65** (in part) the description of a feature is the sentence that the rules of `Reads` give. Missing: custom descriptions
that are empty or given for features that the keys of the dictionary do not tell apart; what `str.upper` does. -/
theorem C65_reads_partial {upper : String → String} {C : GCustom} (hc : Clear C) {f : GFeat} {d s : String}
    (h : Reads upper C f d) (hs : Sentence upper d s) : describeFeature upper C f = .ok s := by
  unfold describeFeature
  rw [reads_generate hc h]
  simp only [Except.bind]
  rw [sentence_ok hs]

/-- **C65** (in part) a feature has a description: features with conditions on scalars only, of primitives that have something to
say about their inputs, read in one way. Missing: slices of group-by and direct features, and other conditions. -/
theorem C65_described_partial {upper : String → String} {C : GCustom} (hc : Clear C) {f : GFeat} (h : Tellable upper C f) :
    ∃ d s, Reads upper C f d ∧ (∀ d', Reads upper C f d' → d' = d) ∧ Sentence upper d s ∧ describeFeature upper C f = .ok s := by
  obtain ⟨d, hd⟩ := (describable_told h).1
  obtain ⟨s, hs⟩ := sentence_exists upper d
  refine ⟨d, s, hd, fun d' hd' => ?_, hs, C65_reads_partial hc hd hs⟩
  have := (reads_generate hc hd).symm.trans (reads_generate hc hd')
  cases this
  rfl

/-- A primitive without template always has something to say. -/
example (upper : String → String) (k : Nat) : Sayable upper DescribeExample.none DescribeExample.mine .none k :=
  fun inputs _ => ⟨_, by simp [String.append_eq_empty_iff], .generic ⟨rfl, fun _ _ => rfl, rfl⟩ (.inl ⟨_, rfl, rfl⟩)⟩

/-- The sum of the amounts on the phone, seen from a session. -/
example (upper : String → String) : (∃ d, Reads upper DescribeExample.none DescribeExample.ofParent d) ∧ Clear DescribeExample.none := by
  refine ⟨⟨_, .parent ⟨rfl, rfl⟩ (.last nofun) (.agg ⟨rfl, rfl⟩ (.cons (.column ⟨rfl, rfl⟩) .nil) (.text (s := "the sum of the \"amount\"") (.own rfl (fun _ _ => rfl) rfl) ?_ ?_)
    (by decide) (.some (.column ⟨rfl, rfl⟩) rfl) (.inr ⟨⟨rfl, rfl⟩, rfl⟩) (.inr ⟨rfl, ?_⟩))⟩, ?_, ?_⟩
  · exact ⟨by decide, nofun⟩
  · refine ⟨[.char 't', .char 'h', .char 'e', .char ' ', .char 's', .char 'u', .char 'm', .char ' ', .char 'o', .char 'f', .char ' ', .next], ⟨.inr (by simp), by simp⟩, by decide, ?_⟩
    have : "the sum of the \"amount\"".toList = ['t', 'h', 'e', ' ', 's', 'u', 'm', ' ', 'o', 'f', ' '] ++ ("the \"amount\"".toList ++ []) := by decide +kernel
    rw [this]
    repeat apply Filled.char
    exact .next rfl (.nil _)
  · intro r h
    have := congrArg String.toList h
    simp at this
  · nofun
  · nofun

/-- What `describe_feature` returns for it. -/
example : describeFeature (fun s => if s = "t" then "T" else s) DescribeExample.none DescribeExample.ofParent =
    .ok "The sum of the \"amount\" of all instances of \"transactions\" where the \"device\" is phone for each \"customer_id\" in \"customers\" for the instance of \"customers\" associated with this instance of \"sessions\"." := by
  decide +kernel

/-- One of the outputs of a primitive with several. -/
example : describeFeature (fun s => if s = "t" then "T" else s) DescribeExample.none
    (.mk (.slice 1) "customers" "N[1]" [.mk (.agg DescribeExample.nMost "transactions" "customer_id" (some "3 days")) "customers" "N" [DescribeExample.device] []] []) =
    .ok "The 2nd most common of the \"device\" of the previous 3 days of \"transactions\" for each \"customer_id\" in \"customers\"." := by
  decide +kernel

/-- **C65** is violated by conditions other than equality: the sum where the device is a phone and the sum where it is not have
one description. -/
theorem C65_condition_violated (upper : String → String) :
    DescribeExample.onPhone ≠ DescribeExample.offPhone ∧
    describeFeature upper DescribeExample.none (DescribeExample.spent DescribeExample.onPhone) =
      describeFeature upper DescribeExample.none (DescribeExample.spent DescribeExample.offPhone) :=
  ⟨nofun, rfl⟩

/-- **C65** is violated by conditions that are not on a scalar: two features compared, and a feature that is a boolean column. -/
theorem C65_conditionFails_violated (upper : String → String) :
    describeFeature upper DescribeExample.none (DescribeExample.spent
      (.mk (.transform DescribeExample.equal) "transactions" "device = amount" [DescribeExample.device, DescribeExample.amount] [])) =
      .error .attributeError ∧
    describeFeature upper DescribeExample.none (DescribeExample.spent DescribeExample.device) = .error .indexError :=
  ⟨rfl, rfl⟩

/-- **C65** is violated by scalars that contain braces. -/
theorem C65_braces_violated (upper : String → String) :
    describeFeature upper DescribeExample.none (.mk (.transform DescribeExample.isBrace) "transactions" "device = {" [DescribeExample.device] []) =
      .error .valueError := rfl

/-- **C65** is violated by a custom description that is empty. -/
theorem C65_empty_violated (upper : String → String) :
    describeFeature upper ⟨[(("transactions", "amount"), "")], [], [], []⟩ DescribeExample.amount = .error .typeError := rfl

/-- **C65** is violated by an empty custom description of an input: the text of a primitive with a template says `None`, that of a
primitive without one cannot be written. -/
theorem C65_emptyInput_violated :
    describeFeature (fun s => s) ⟨[(("transactions", "amount"), "")], [], [], []⟩
      (.mk (.transform DescribeExample.cumSum) "transactions" "CUM_SUM(amount)" [DescribeExample.amount] []) =
      .ok "the cumulative sum of None." ∧
    describeFeature (fun s => s) ⟨[(("transactions", "amount"), "")], [], [], []⟩
      (.mk (.transform DescribeExample.mine) "transactions" "MINE(amount)" [DescribeExample.amount] []) = .error .typeError := by
  constructor <;> decide +kernel

/-- **C65** is violated by a feature whose name and entity, written one after the other, are those of a feature with a custom
description: `"a"` of `"bc"` and `"ab"` of `"c"`. -/
theorem C65_key_violated (upper : String → String) :
    describeFeature upper ⟨[(("bc", "a"), "text")], [], [], []⟩ (.mk (.identity "the \"ab\"") "c" "ab" [] []) = .error .assertionError := by
  rfl

/-- **C65** is violated by the output of a group-by feature: the grouping appears among the inputs. -/
theorem C65_groupOutput_violated :
    describeFeature (fun s => s) DescribeExample.none
      (.mk (.slice 0) "transactions" "M[0]" [.mk (.groupby DescribeExample.mine) "transactions" "M" [DescribeExample.amount, DescribeExample.device] []] []) =
      .ok "the 1st output from applying mine to the \"amount\", the \"device\"." := by
  decide +kernel

/-- **C65** is violated by the output of a direct feature: the primitive is not mentioned. -/
theorem C65_directOutput_violated :
    describeFeature (fun s => s) DescribeExample.none
      (.mk (.slice 0) "sessions" "customers.N[0]" [.mk (.direct "customers") "sessions" "customers.N"
        [.mk (.agg DescribeExample.nMost "transactions" "customer_id" .none) "customers" "N" [DescribeExample.device] []] []] []) =
      .ok "the 1st output from applying PrimitiveBase to the 2 most common of all instances of \"transactions\" for each \"customer_id\" in \"customers\"." := by
  decide +kernel

/-- **C65** is violated by custom descriptions of direct features on the way: they are not used. -/
theorem C65_chain_violated :
    describeFeature (fun s => s) ⟨[(("sessions", "customers.age"), "the age of the buyer")], [], [], []⟩
      (.mk (.direct "sessions") "transactions" "sessions.customers.age"
        [.mk (.direct "customers") "sessions" "customers.age" [.mk (.identity "the \"age\"") "customers" "age" [] []] []] []) =
      .ok "the \"age\" for the instance of \"customers\" associated with the instance of \"sessions\" associated with this instance of \"transactions\"." := by
  decide +kernel

end FT
