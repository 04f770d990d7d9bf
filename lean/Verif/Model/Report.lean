import Verif.Model.Pam2Measures
import Verif.Model.Pipeline
import Mathlib.Data.String.Basic
import Mathlib.Data.List.Sort

/-!
Model of the reports of `hardware_tools/measurement/eyediagram/eyediagram.py`: `Measures.to_dict`, `save_json` and `pretty_print`, with the attributes
that `PAM2._step4_measure` sets.

Floats are reals, `none` is nan or inf.  The text of a JSON file is not modelled: a file is the tree of its values.  The text of a formatted number
is a parameter.
-/

namespace Verif.Report

open Verif Verif.Stats Verif.Eye Verif.Pam2 Verif.Pipeline

/-- A python value that is not a dictionary. -/
inductive Item where
  | none
  | int (n : ℤ)
  /-- `float`, also `np.float64`, which is a subclass. -/
  | float (x : Option ℝ)
  /-- `np.integer`. -/
  | npInt (n : ℤ)
  /-- `np.floating`, other than `np.float64`. -/
  | npFloat (x : Option ℝ)
  | uncertain (value stddev : Option ℝ)
  | bytes (s : String)
  | str (s : String)
  /-- `np.ndarray` of two dimensions. -/
  | array (rows : List (List (Option ℝ)))

/-- A python value. -/
inductive Val where
  | item (x : Item)
  | dict (d : List (String × Item))

/-- An attribute of a class: a property with its getter, or anything else (a method). -/
inductive Attr where
  | property (get : List (String × Val) → Val)
  | other

/-- A Measures object: the attributes of its class and its own, by name. -/
structure Obj where
  cls : List (String × Attr)
  inst : List (String × Val)

/-- `hasattr(self.__class__, key)`, `getattr(self.__class__, key)`, eyediagram.py:210-211. -/
def Obj.classAttr (o : Obj) (key : String) : Option Attr := o.cls.lookup key

/-- `getattr(self, key)` of an attribute that `dir` lists, eyediagram.py:214, 216: a property of the class comes before an attribute of the
instance. -/
def Obj.value (o : Obj) (key : String) : Val :=
  match o.classAttr key with
  | some (.property f) => f o.inst
  | _ => (o.inst.lookup key).getD (.item .none)

/-- `dir(self)`: the names of all attributes, sorted.  Simplification: those every python object has begin with an underscore and are left out. -/
def Obj.dir (o : Obj) : List String := ((o.inst.map Prod.fst ++ o.cls.map Prod.fst).dedup).insertionSort (· ≤ ·)

/-- The conditions with `continue` common to `to_dict` and `pretty_print`, eyediagram.py:206-207, 210-213, 228-233. -/
def Obj.shown (o : Obj) (key : String) : Bool :=
  !key.startsWith "_" && (match o.classAttr key with
    | some (.property _) => true
    | some .other => false
    | none => true)

/-- `to_dict`, eyediagram.py:193-218. -/
def toDict (o : Obj) (excludeImages : Bool) : List (String × Val) :=
  (o.dir.filter fun key => o.shown key && !(excludeImages && key.startsWith "image")).map fun key => (key, o.value key)

/-! ### JSON -/

/-- The tree of a JSON file; `NaN` and `Infinity` are `real none`. -/
inductive Json where
  | null
  | num (n : ℤ)
  | real (x : Option ℝ)
  | str (s : String)
  | arr (l : List Json)
  | obj (l : List (String × Json))

/-- `json.dump` of a value with `MeasuresJSONEncoder`, eyediagram.py:38-53. -/
def dumpItem : Item → Json
  | .none => .null
  | .int n => .num n
  | .float x => .real x
  | .npInt n => .num n
  | .npFloat x => .real x
  | .uncertain v s => .obj [("__type__", .str "UncertainValue"), ("value", .real v), ("stddev", .real s)]
  | .bytes s => .str s
  | .str s => .str s
  | .array rows => .arr (rows.map fun r => .arr (r.map .real))

/-- `json.dump` of a value or a dictionary of values. -/
def dump : Val → Json
  | .item x => dumpItem x
  | .dict d => .obj (d.map fun p => (p.1, dumpItem p.2))

/-- `save_json`, eyediagram.py:147-163, without further arguments: the content of the file. -/
def saveJson (o : Obj) (excludeImages : Bool) : Json := .obj ((toDict o excludeImages).map fun p => (p.1, dump p.2))

/-! ### Text -/

/-- How python formats numbers: `f"{x:10.3G}"` and `f"{n:10}"`; the text for an array, eyediagram.py:258. -/
structure Formats where
  float : Option ℝ → String
  int : ℤ → String
  shape : List (List (Option ℝ)) → String

/-- `UncertainValue.__format__` with `10.3G`, stats.py:201-209. -/
def Formats.uncertain (f : Formats) (v s : Option ℝ) : String := "(µ=" ++ f.float v ++ ",σ=" ++ f.float s ++ ")"

/-- The text of a value, eyediagram.py:256-276; an array is only recognised in a dictionary. -/
def itemText (f : Formats) (inDict : Bool) : Item → String
  | .none => "[Unknown, type=NoneType]"
  | .int n => f.int n
  | .float x => f.float x
  | .npInt n => f.int n
  | .npFloat x => f.float x
  | .uncertain v s => f.uncertain v s
  | .bytes _ => "[Unknown, type=bytes]"
  | .str _ => "[Unknown, type=str]"
  | .array rows => if inDict then f.shape rows else "[Unknown, type=ndarray]"

/-- `f"{key:{n}}"`: filled with spaces on the right. -/
def pad (n : ℕ) (key : String) : String := key ++ String.ofList (List.replicate (n - key.length) ' ')

/-- The lines of one attribute, eyediagram.py:246-276; ValueError from `max` for an empty dictionary. -/
def entry (f : Formats) (o : Obj) (width : ℕ) (key : String) : Except PyErr (List String) :=
  if key.startsWith "image" then .ok [pad width key ++ ": [Image]"]
  else
    match o.value key with
    | .item x => .ok [pad width key ++ ": " ++ itemText f false x]
    | .dict d =>
      if d = [] then .error .valueError
      else
        let w := (d.map fun p => p.1.length).foldl max 0
        .ok ((pad width key ++ ": ") :: d.map fun p => "  " ++ pad w p.1 ++ ": " ++ itemText f true p.2)

/-- `pretty_print`, eyediagram.py:220-276: the lines.  Simplification: those printed before an exception are left out. -/
def prettyPrint (f : Formats) (o : Obj) : Except PyErr (List String) := do
  let keys := o.dir.filter o.shown
  let width := (keys.map String.length).foldl max 0
  return (← keys.mapM (entry f o width)).flatten

/-! ### The measures of PAM2 -/

/-- The getters of the images, eyediagram.py:165-191; `png` is `np_to_base64`, image.py:56-68. -/
def imageOf (png : List (List (Option ℝ)) → String) (name : String) : Attr :=
  .property fun inst =>
    match inst.lookup name with
    | some (.item (.array rows)) => .item (.bytes (png rows))
    | _ => .item .none

/-- The attributes of the class, eyediagram.py:56-276, pam2.py:24-128. -/
def pam2Class (png : List (List (Option ℝ)) → String) : List (String × Attr) :=
  [("set_images", .other), ("save_images", .other), ("save_json", .other), ("image_clean", imageOf png "_np_image_clean"),
    ("image_grid", imageOf png "_np_image_grid"), ("image_mask", imageOf png "_np_image_mask"), ("image_hits", imageOf png "_np_image_hits"),
    ("image_margin", imageOf png "_np_image_margin"), ("to_dict", .other), ("pretty_print", .other)]

/-- The attributes `Measures.__init__` and `MeasuresPAM2.__init__` create, eyediagram.py:84-101, pam2.py:87-127. -/
def initNames : List String :=
  ["n_samples", "n_sym", "n_sym_bad", "transition_dist", "mask_margin", "_np_image_clean", "_np_image_grid", "_np_image_mask", "_np_image_hits",
    "_np_image_margin", "bathtub_curves", "y_0", "y_1", "y_cross", "y_cross_r", "y_avg", "y_0_cross", "y_1_cross", "amp", "height", "height_r", "snr",
    "t_sym", "t_0", "t_1", "t_0_start", "t_1_start", "t_rise", "t_fall", "t_rise_start", "t_fall_start", "t_cross", "f_sym", "width", "width_r",
    "dcd", "dcd_r", "jitter_pp", "jitter_rms", "extinction_ratio", "oma_cross", "vecp"]

/-- A new object: all measures are None. -/
def newInst : List (String × Val) := initNames.map fun k => (k, .item .none)

/-- `m.key = v`. -/
def assign (inst : List (String × Val)) (p : String × Val) : List (String × Val) :=
  if p.1 ∈ inst.map Prod.fst then inst.map fun q => if q.1 = p.1 then p else q else inst ++ [p]

/-- A measure from samples; (nan, nan) without. -/
def uv (x : Option UV) : Val := .item (.uncertain (x.map (·.value)) (x.map (·.stddev)))

/-- A computed measure. -/
def nv (x : NV) : Val := .item (.uncertain x.value x.stddev)

/-- The transitions, pam2.py:380-389, 402-403: a dictionary of numbers. -/
def transDict (n : Bool → Bool → Bool → ℕ) : Val :=
  .dict [("000", .int (n false false false)), ("001", .int (n false false true)), ("010", .int (n false true false)), ("011", .int (n false true true)),
    ("100", .int (n true false false)), ("101", .int (n true false true)), ("110", .int (n true true false)), ("111", .int (n true true true))]

/-- The number of symbols and of samples, pam2.py:353-356, 412-415. -/
def counted (T δ : ℚ) (wfs : List Wf) : List (String × Val) :=
  let n : ℕ := (wfs.map fun w => w.centers.length).sum
  [("n_sym", .item (.int n)), ("n_samples", .item (.int (pyInt (n * T / δ))))]

/-- The assignments if the measures are skipped, pam2.py:352-367. -/
def skippedSets (T δ : ℚ) (wfs : List Wf) : List (String × Val) := counted T δ wfs ++ [("transition_dist", transDict fun _ _ _ => 0)]

/-- The vertical measures, pam2.py:417-449. -/
def verticalSets (m : VMeasures) : List (String × Val) :=
  [("y_0", uv m.y0), ("y_1", uv m.y1), ("y_cross", uv m.cross), ("y_0_cross", uv m.y0Cross), ("y_1_cross", uv m.y1Cross), ("y_avg", uv m.avg),
    ("transition_dist", transDict m.trans), ("amp", uv m.amp), ("height", uv m.height), ("height_r", nv m.heightR), ("snr", nv m.snr),
    ("y_cross_r", nv m.crossR), ("extinction_ratio", nv m.extinction), ("oma_cross", uv m.omaCross), ("vecp", nv m.vecp)]

/-- The horizontal measures, pam2.py:513-536. -/
def horizontalSets (m : HMeasures) : List (String × Val) :=
  [("t_sym", uv m.tSym), ("t_0", uv m.t0), ("t_1", uv m.t1), ("t_0_start", uv m.t0Start), ("t_1_start", uv m.t1Start), ("t_rise", uv m.tRise),
    ("t_fall", uv m.tFall), ("t_rise_start", uv m.tRiseStart), ("t_fall_start", uv m.tFallStart), ("t_cross", uv m.tCross), ("f_sym", nv m.fSym),
    ("width", uv m.width), ("width_r", nv m.widthR), ("dcd", uv m.dcd), ("dcd_r", nv m.dcdR), ("jitter_pp", .item (.float m.jitterPp)),
    ("jitter_rms", .item (.float m.jitterRms))]

/-- The results of the mask, pam2.py:541-552: nan without a mask. -/
def maskSets : Option MaskAll → List (String × Val)
  | none => [("mask_margin", .item (.float none)), ("n_sym_bad", .item (.float none))]
  | some r => [("mask_margin", .item (.float (some (r.margin : ℝ)))), ("n_sym_bad", .item (.int r.count))]

/-- The bathtub curve, pam2.py:556, eyediagram.py:755. -/
def bathtubSets (b : List (ℚ × ℚ)) : List (String × Val) :=
  [("bathtub_curves", .dict [("Eye 0", .array [b.map fun p => some (p.1 : ℝ), b.map fun p => some (p.2 : ℝ)])])]

/-- The images as arrays, eyediagram.py:943-944.  Simplification: the colours of one row are put one after another. -/
structure Images where
  clean : List (List (Option ℝ))
  grid : List (List (Option ℝ))
  mask : List (List (Option ℝ))
  hits : List (List (Option ℝ))
  margin : List (List (Option ℝ))

/-- `set_images`, eyediagram.py:103-121. -/
def imageSets (i : Images) : List (String × Val) :=
  [("_np_image_clean", .item (.array i.clean)), ("_np_image_grid", .item (.array i.grid)), ("_np_image_mask", .item (.array i.mask)),
    ("_np_image_hits", .item (.array i.hits)), ("_np_image_margin", .item (.array i.margin))]

/-- The assignments of steps 4 and 5, pam2.py:349-558, eyediagram.py:943, from the results; `nf` is the configured noise floor, `none` for `v` if the
measures are skipped. -/
noncomputable def allSets (nf : ℝ) (δ T : ℚ) (wfs : List Wf) (v : Option (List VOut)) (h : List HOut) (m : Option MaskAll) (b : List (ℚ × ℚ))
    (i : Images) : List (String × Val) :=
  (match v with
    | none => skippedSets T δ wfs
    | some v => counted T δ wfs ++ verticalSets (vMeasures nf v) ++ horizontalSets (hMeasures T h) ++ maskSets m ++ bathtubSets b) ++
  imageSets i

/-- The Measures object of an analysis, `get_measures`, eyediagram.py:982-993; levels that are usable. -/
noncomputable def report (png : List (List (Option ℝ)) → String) (nf : ℝ) (δ : ℚ) (a : Analysis) (p : Picture) (i : Images) : Obj :=
  ⟨pam2Class png, (allSets nf δ a.tSym a.wfs a.v p.h p.mask p.bathtub i).foldl assign newInst⟩

end Verif.Report
