import Verif.Model.AdapterTablesPandas
import Verif.Model.AdapterTablesPolars
import Verif.Model.AdapterTablesOther

/-! What C87 says about the options of data loaders and savers: when each is passed on, and where the
location goes. -/

namespace Verif.Options

/-! ### Specification -/

/-- When an option is passed on. -/
inductive Rule where
  /-- Unless its value is `None`. -/
  | unlessNone
  /-- Always. -/
  | always
  /-- Never. -/
  | never
  /-- With pandas 2.0 or newer, unless `None`. -/
  | newPandas
  /-- With a pandas older than 2.0, unless `None`. -/
  | oldPandas
  /-- If the option `version` is 117, unless `None`. -/
  | version117
  /-- Unless the option `compression` is `None`. -/
  | withCompression
  /-- Unless its value is `False`. -/
  | unlessFalse
  deriving DecidableEq

/-- `none` for `None`. -/
def present : Val → Option Val
  | .none => none
  | v => some v

/-- `none` for `False`. -/
def notFalse : Val → Option Val
  | .bool false => none
  | v => some v

/-- Whether a value is 117 (as an integer). -/
def is117 : Val → Prop
  | .int n => n = 117
  | _ => False

instance (v : Val) : Decidable (is117 v) := by
  unfold is117
  split <;> infer_instance

/-- What is passed on for the option `k`, given the values of all options. -/
def Rule.passes (old : Prop) [Decidable old] (value : Name → Val) (k : Name) : Rule → Option Val
  | .unlessNone => present (value k)
  | .always => some (value k)
  | .never => none
  | .newPandas => if old then none else present (value k)
  | .oldPandas => if old then present (value k) else none
  | .version117 => if is117 (value "version") then present (value k) else none
  | .withCompression => (present (value "compression")).map fun _ => value k
  | .unlessFalse => notFalse (value k)

/-- The adapters that pass on every option, `None` or not. -/
def passAll : List Name :=
  ["pandas_extensions.PandasExcelReader", "pandas_extensions.PandasExcelWriter",
    "pandas_extensions.PandasTableReader", "pandas_extensions.PandasFWFReader",
    "pandas_extensions.PandasSPSSReader", "numpy_extensions.NumpyNpyWriter",
    "numpy_extensions.NumpyNpyReader", "lightgbm_extensions.LightGBMFileWriter"]

/-- The options that are treated differently from the other options of their adapter. -/
def exceptions : List ((Name × Name) × Rule) :=
  [(("pandas_extensions.PandasCSVReader", "skipfooter"), .never),
    (("pandas_extensions.PandasCSVReader", "decimal"), .never),
    (("pandas_extensions.PandasCSVReader", "dtype_backend"), .newPandas),
    (("pandas_extensions.PandasParquetReader", "use_nullable_dtypes"), .oldPandas),
    (("pandas_extensions.PandasParquetReader", "dtype_backend"), .newPandas),
    (("pandas_extensions.PandasJsonReader", "dtype_backend"), .newPandas),
    (("pandas_extensions.PandasJsonWriter", "lines"), .unlessFalse),
    (("pandas_extensions.PandasSqlReader", "dtype_backend"), .newPandas),
    (("pandas_extensions.PandasXmlReader", "dtype_backend"), .newPandas),
    (("pandas_extensions.PandasHtmlReader", "dtype_backend"), .newPandas),
    (("pandas_extensions.PandasFeatherReader", "dtype_backend"), .newPandas),
    (("pandas_extensions.PandasStataWriter", "convert_strl"), .version117),
    (("pandas_extensions.PandasExcelReader", "engine_kwargs"), .unlessNone),
    (("pandas_extensions.PandasExcelWriter", "engine_kwargs"), .unlessNone),
    (("polars_lazyframe_extensions.PolarsScanCSVReader", "batch_size"), .never),
    (("polars_lazyframe_extensions.PolarsScanCSVReader", "use_pyarrow"), .never),
    (("polars_lazyframe_extensions.PolarsScanParquetReader", "use_pyarrow"), .never),
    (("polars_lazyframe_extensions.PolarsScanParquetReader", "memory_map"), .never),
    (("polars_lazyframe_extensions.PolarsScanFeatherReader", "use_pyarrow"), .never),
    (("polars_post_1_0_0_extensions.PolarsCSVReader", "include_header"), .never),
    (("polars_post_1_0_0_extensions.PolarsCSVReader", "sample_size"), .never),
    (("polars_post_1_0_0_extensions.PolarsParquetWriter", "compression_level"), .withCompression),
    (("polars_post_1_0_0_extensions.PolarsParquetWriter", "statistics"), .withCompression),
    (("polars_post_1_0_0_extensions.PolarsParquetWriter", "row_group_size"), .withCompression),
    (("polars_post_1_0_0_extensions.PolarsParquetWriter", "use_pyarrow"), .withCompression),
    (("polars_post_1_0_0_extensions.PolarsParquetWriter", "pyarrow_options"), .withCompression),
    (("polars_pre_1_0_0_extension.PolarsCSVReader", "include_header"), .never),
    (("polars_pre_1_0_0_extension.PolarsCSVReader", "sample_size"), .never),
    (("polars_pre_1_0_0_extension.PolarsParquetWriter", "compression_level"), .withCompression),
    (("polars_pre_1_0_0_extension.PolarsParquetWriter", "statistics"), .withCompression),
    (("polars_pre_1_0_0_extension.PolarsParquetWriter", "row_group_size"), .withCompression),
    (("polars_pre_1_0_0_extension.PolarsParquetWriter", "use_pyarrow"), .withCompression),
    (("polars_pre_1_0_0_extension.PolarsParquetWriter", "pyarrow_options"), .withCompression),
    (("dlt_extensions.DltDestinationSaver", "table_name"), .always),
    (("matplotlib_extensions.MatplotlibWriter", "dpi"), .never)]

/-- The rule for an option of an adapter. -/
def ruleOf (adapter option : Name) : Rule :=
  match Dict.get? exceptions (adapter, option) with
  | some r => r
  | none => if adapter ∈ passAll then .always else .unlessNone

/-- How many of the first fields say where the data is; the others are the options. -/
def locationCount (adapter : Name) : Nat :=
  if adapter ∈ ["pandas_extensions.PandasPickleReader", "pandas_extensions.PandasSqlReader",
      "pandas_extensions.PandasSqlWriter", "polars_post_1_0_0_extensions.PolarsSpreadsheetWriter",
      "polars_pre_1_0_0_extension.PolarsSpreadsheetWriter",
      "polars_post_1_0_0_extensions.PolarsDatabaseReader",
      "polars_post_1_0_0_extensions.PolarsDatabaseWriter",
      "polars_pre_1_0_0_extension.PolarsDatabaseReader",
      "polars_pre_1_0_0_extension.PolarsDatabaseWriter"] then 2
  else 1

/-- The keywords under which the location is passed; by position for adapters that are not listed. -/
def locationKeywords (adapter : Name) : List Name :=
  (Dict.get? [("polars_post_1_0_0_extensions.PolarsDatabaseReader", ["query", "connection"]),
    ("polars_post_1_0_0_extensions.PolarsDatabaseWriter", ["table_name", "connection"]),
    ("polars_pre_1_0_0_extension.PolarsDatabaseReader", ["query", "connection"]),
    ("polars_pre_1_0_0_extension.PolarsDatabaseWriter", ["table_name", "connection"]),
    ("matplotlib_extensions.MatplotlibWriter", ["fname"]),
    ("plotly_extensions.PlotlyStaticWriter", ["file"]),
    ("plotly_extensions.PlotlyInteractiveWriter", ["file"]),
    ("numpy_extensions.NumpyNpyWriter", ["file"]), ("numpy_extensions.NumpyNpyReader", ["file"]),
    ("lightgbm_extensions.LightGBMFileWriter", ["filename"]),
    ("lightgbm_extensions.LightGBMFileReader", ["model_file"])] adapter).getD []

/-- The adapters with an option that is a dict of further keyword arguments. -/
def withExtra : List Name :=
  ["pandas_extensions.PandasParquetWriter", "huggingface_extensions.HuggingFaceDSLoader",
    "huggingface_extensions.HuggingFaceDSParquetSaver"]

/-- The adapters that pass copies of their options, made by `dataclasses.asdict`. -/
def copying : List Name :=
  ["pandas_extensions.PandasExcelReader", "pandas_extensions.PandasExcelWriter",
    "pandas_extensions.PandasTableReader", "pandas_extensions.PandasFWFReader",
    "pandas_extensions.PandasSPSSReader", "huggingface_extensions.HuggingFaceDSLoader",
    "huggingface_extensions.HuggingFaceDSParquetSaver"]

/-- The functions of the library that an adapter is documented to map to (for pandas and polars: the
links in the documentation of the classes). -/
def functionsOf : List (Name × List Name) :=
  [("pandas_extensions.PandasCSVReader", ["pd.read_csv"]),
    ("pandas_extensions.PandasCSVWriter", ["data.to_csv"]),
    ("pandas_extensions.PandasParquetReader", ["pd.read_parquet"]),
    ("pandas_extensions.PandasParquetWriter", ["data.to_parquet"]),
    ("pandas_extensions.PandasPickleReader", ["pd.read_pickle"]),
    ("pandas_extensions.PandasPickleWriter", ["data.to_pickle"]),
    ("pandas_extensions.PandasJsonReader", ["pd.read_json"]),
    ("pandas_extensions.PandasJsonWriter", ["data.to_json"]),
    ("pandas_extensions.PandasSqlReader", ["pd.read_sql"]),
    ("pandas_extensions.PandasSqlWriter", ["data.to_sql"]),
    ("pandas_extensions.PandasXmlReader", ["pd.read_xml"]),
    ("pandas_extensions.PandasXmlWriter", ["data.to_xml"]),
    ("pandas_extensions.PandasHtmlReader", ["pd.read_html"]),
    ("pandas_extensions.PandasHtmlWriter", ["data.to_html"]),
    ("pandas_extensions.PandasStataReader", ["pd.read_stata"]),
    ("pandas_extensions.PandasStataWriter", ["data.to_stata"]),
    ("pandas_extensions.PandasFeatherReader", ["pd.read_feather"]),
    ("pandas_extensions.PandasFeatherWriter", ["data.to_feather"]),
    ("pandas_extensions.PandasORCReader", ["pd.read_orc"]),
    ("pandas_extensions.PandasORCWriter", ["data.to_orc"]),
    ("pandas_extensions.PandasExcelReader", ["pd.read_excel"]),
    ("pandas_extensions.PandasExcelWriter", ["pd.ExcelWriter", "data.to_excel"]),
    ("pandas_extensions.PandasTableReader", ["pd.read_table"]),
    ("pandas_extensions.PandasFWFReader", ["pd.read_fwf"]),
    ("pandas_extensions.PandasSPSSReader", ["pd.read_spss"]),
    ("polars_post_1_0_0_extensions.PolarsCSVReader", ["pl.read_csv"]),
    ("polars_post_1_0_0_extensions.PolarsCSVWriter", ["data.write_csv"]),
    ("polars_post_1_0_0_extensions.PolarsParquetReader", ["pl.read_parquet"]),
    ("polars_post_1_0_0_extensions.PolarsParquetWriter", ["data.write_parquet"]),
    ("polars_post_1_0_0_extensions.PolarsFeatherReader", ["pl.read_ipc"]),
    ("polars_post_1_0_0_extensions.PolarsFeatherWriter", ["data.write_ipc"]),
    ("polars_post_1_0_0_extensions.PolarsAvroReader", ["pl.read_avro"]),
    ("polars_post_1_0_0_extensions.PolarsAvroWriter", ["data.write_avro"]),
    ("polars_post_1_0_0_extensions.PolarsJSONReader", ["pl.read_json"]),
    ("polars_post_1_0_0_extensions.PolarsJSONWriter", ["data.write_json"]),
    ("polars_post_1_0_0_extensions.PolarsSpreadsheetReader", ["pl.read_excel"]),
    ("polars_post_1_0_0_extensions.PolarsSpreadsheetWriter", ["data.write_excel"]),
    ("polars_pre_1_0_0_extension.PolarsCSVReader", ["pl.read_csv"]),
    ("polars_pre_1_0_0_extension.PolarsCSVWriter", ["data.write_csv"]),
    ("polars_pre_1_0_0_extension.PolarsParquetReader", ["pl.read_parquet"]),
    ("polars_pre_1_0_0_extension.PolarsParquetWriter", ["data.write_parquet"]),
    ("polars_pre_1_0_0_extension.PolarsFeatherReader", ["pl.read_ipc"]),
    ("polars_pre_1_0_0_extension.PolarsFeatherWriter", ["data.write_ipc"]),
    ("polars_pre_1_0_0_extension.PolarsAvroReader", ["pl.read_avro"]),
    ("polars_pre_1_0_0_extension.PolarsAvroWriter", ["data.write_avro"]),
    ("polars_pre_1_0_0_extension.PolarsJSONReader", ["pl.read_json"]),
    ("polars_pre_1_0_0_extension.PolarsJSONWriter", ["data.write_json"]),
    ("polars_pre_1_0_0_extension.PolarsSpreadsheetReader", ["pl.read_excel"]),
    ("polars_pre_1_0_0_extension.PolarsSpreadsheetWriter", ["data.write_excel"]),
    ("polars_post_1_0_0_extensions.PolarsDatabaseReader", ["pl.read_database"]),
    ("polars_post_1_0_0_extensions.PolarsDatabaseWriter", ["data.write_database"]),
    ("polars_pre_1_0_0_extension.PolarsDatabaseReader", ["pl.read_database"]),
    ("polars_pre_1_0_0_extension.PolarsDatabaseWriter", ["data.write_database"]),
    ("polars_lazyframe_extensions.PolarsScanCSVReader", ["pl.scan_csv"]),
    ("polars_lazyframe_extensions.PolarsScanParquetReader", ["pl.scan_parquet"]),
    ("polars_lazyframe_extensions.PolarsScanFeatherReader", ["pl.scan_ipc"]),
    ("dlt_extensions.DltDestinationSaver", ["self.pipeline.run"]),
    ("huggingface_extensions.HuggingFaceDSLoader", ["load_dataset"]),
    ("huggingface_extensions.HuggingFaceDSParquetSaver", ["ds.to_parquet"]),
    ("lightgbm_extensions.LightGBMFileWriter", ["data.save_model"]),
    ("lightgbm_extensions.LightGBMFileReader", ["type_"]),
    ("matplotlib_extensions.MatplotlibWriter", ["data.savefig"]),
    ("numpy_extensions.NumpyNpyWriter", ["np.save"]),
    ("numpy_extensions.NumpyNpyReader", ["np.load"]),
    ("plotly_extensions.PlotlyStaticWriter", ["data.write_image"]),
    ("plotly_extensions.PlotlyInteractiveWriter", ["data.write_html"]),
    ("sklearn_plot_extensions.SklearnPlotSaver", ["figure.savefig"])]

/-- The adapters whose metadata is about a query or table. -/
def sqlNames : List Name := ["pandas_extensions.PandasSqlReader", "pandas_extensions.PandasSqlWriter"]

/-- The adapters whose metadata does not look at the location. -/
def otherNames : List Name :=
  ["dlt_extensions.DltDestinationSaver", "huggingface_extensions.HuggingFaceDSLoader"]

mutual
/-- A value whose copy equals it: no open file and no dataclass instance in it. -/
def Val.plain : Val → Bool
  | .buffer c _ => c
  | .obj c _ => c
  | .dict items => plainItems items
  | .record _ => false
  | _ => true

/-- All values of a dict are plain. -/
def plainItems : List (Name × Val) → Bool
  | [] => true
  | (_, v) :: rest => v.plain && plainItems rest
end

/-- All adapters. -/
def allAdapters : List Adapter := pandasAdapters ++ polarsAdapters ++ otherAdapters

/-- The adapters without an option for further keyword arguments. -/
def adapters : List Adapter := allAdapters.filter fun a => !withExtra.contains a.name

/-- The value of an option: what was given, else the default in the class. -/
def valueOf (a : Adapter) (args : Dict Name Val) (k : Name) : Val :=
  (args.get? k).getD (((a.fields.find? fun f => f.1 == k).bind (·.2)).getD .none)

/-- The options of an adapter: the fields that are no location. -/
def optionsOf (a : Adapter) : List Name := (a.fields.map (·.1)).drop (locationCount a.name)

/-- The fields that say where the data is. -/
def locationsOf (a : Adapter) : List Name := (a.fields.map (·.1)).take (locationCount a.name)

/-- Proper arguments: options or locations of the adapter, each required one among them. -/
def Proper (a : Adapter) (args : Dict Name Val) : Prop :=
  (∀ k ∈ args.keys, k ∈ a.fields.map (·.1)) ∧ ∀ f ∈ a.fields, f.2 = none → f.1 ∈ args.keys

/-- The values that an adapter copies can be copied. -/
def Copyable (a : Adapter) (args : Dict Name Val) : Prop :=
  a.name ∈ copying → ∀ p ∈ args, p.2.plain = true

end Verif.Options
