import Verif.Model.AdapterOptions

/-! The data adapters of the polars plugins. -/

namespace Verif.Options

/-- `PolarsScanCSVReader`, polars_lazyframe_extensions.py:76-174: `_get_loading_kwargs` lines
110-160, `load_data` lines 166-170. -/
def polarsScanCSVReader : Adapter where
  name := "polars_lazyframe_extensions.PolarsScanCSVReader"
  fields :=
    [("file", none), ("has_header", some (.bool true)), ("columns", some .none),
      ("new_columns", some .none), ("separator", some (.str ",")), ("comment_char", some .none),
      ("quote_char", some (.str "\"")), ("skip_rows", some (.int 0)), ("dtypes", some .none),
      ("null_values", some .none), ("missing_utf8_is_empty_string", some (.bool false)),
      ("ignore_errors", some (.bool false)), ("try_parse_dates", some (.bool false)),
      ("n_threads", some .none), ("infer_schema_length", some (.int 100)),
      ("batch_size", some (.int 8192)), ("n_rows", some .none), ("encoding", some (.str "utf8")),
      ("low_memory", some (.bool false)), ("rechunk", some (.bool true)),
      ("use_pyarrow", some (.bool false)), ("storage_options", some .none),
      ("skip_rows_after_header", some (.int 0)), ("row_count_name", some .none),
      ("row_count_offset", some (.int 0)), ("eol_char", some (.str "\n")),
      ("raise_if_empty", some (.bool true))]
  post := .nothing
  body :=
    [own "has_header", own "columns", own "new_columns", own "separator", own "comment_char",
      own "quote_char", own "skip_rows", own "dtypes", own "null_values",
      own "missing_utf8_is_empty_string", own "ignore_errors", own "try_parse_dates",
      own "n_threads", own "infer_schema_length", own "n_rows", own "encoding", own "low_memory",
      own "rechunk", own "storage_options", own "skip_rows_after_header", own "row_count_name",
      own "row_count_offset", own "eol_char", own "raise_if_empty"]
  calls :=
    [{ function := "pl.scan_csv", positional := ["file"],
        named := [], pick := .all }]
  metadata := .file "file"

/-- `PolarsScanParquetReader`, polars_lazyframe_extensions.py:178-230: `_get_loading_kwargs` lines
201-221, `load_data` lines 223-226. -/
def polarsScanParquetReader : Adapter where
  name := "polars_lazyframe_extensions.PolarsScanParquetReader"
  fields :=
    [("file", none), ("columns", some .none), ("n_rows", some .none),
      ("use_pyarrow", some (.bool false)), ("memory_map", some (.bool true)),
      ("storage_options", some .none), ("parallel", some (.str "auto")),
      ("row_count_name", some .none), ("row_count_offset", some (.int 0)),
      ("low_memory", some (.bool false)), ("use_statistics", some (.bool true)),
      ("rechunk", some (.bool true))]
  post := .nothing
  body :=
    [own "columns", own "n_rows", own "storage_options", own "parallel", own "row_count_name",
      own "row_count_offset", own "low_memory", own "use_statistics", own "rechunk"]
  calls :=
    [{ function := "pl.scan_parquet", positional := ["file"],
        named := [], pick := .all }]
  metadata := .file "file"

/-- `PolarsScanFeatherReader`, polars_lazyframe_extensions.py:234-280: `_get_loading_kwargs` lines
255-271, `load_data` lines 273-276. -/
def polarsScanFeatherReader : Adapter where
  name := "polars_lazyframe_extensions.PolarsScanFeatherReader"
  fields :=
    [("source", none), ("columns", some .none), ("n_rows", some .none),
      ("use_pyarrow", some (.bool false)), ("memory_map", some (.bool true)),
      ("storage_options", some .none), ("row_count_name", some .none),
      ("row_count_offset", some (.int 0)), ("rechunk", some (.bool true))]
  post := .nothing
  body :=
    [own "columns", own "n_rows", own "memory_map", own "storage_options", own "row_count_name",
      own "row_count_offset", own "rechunk"]
  calls :=
    [{ function := "pl.scan_ipc", positional := ["source"],
        named := [], pick := .all }]
  metadata := .file "source"

/-- `PolarsCSVReader`, polars_post_1_0_0_extensions.py:56-160: `_get_loading_kwargs` lines 96-150,
`load_data` lines 152-156. -/
def polarsCSVReader : Adapter where
  name := "polars_post_1_0_0_extensions.PolarsCSVReader"
  fields :=
    [("file", none), ("has_header", some (.bool true)), ("include_header", some (.bool true)),
      ("columns", some .none), ("new_columns", some .none), ("separator", some (.str ",")),
      ("comment_char", some .none), ("quote_char", some (.str "\"")),
      ("skip_rows", some (.int 0)), ("dtypes", some .none), ("null_values", some .none),
      ("missing_utf8_is_empty_string", some (.bool false)), ("ignore_errors", some (.bool false)),
      ("try_parse_dates", some (.bool false)), ("n_threads", some .none),
      ("infer_schema_length", some (.int 100)), ("batch_size", some (.int 8192)),
      ("n_rows", some .none), ("encoding", some (.str "utf8")),
      ("low_memory", some (.bool false)), ("rechunk", some (.bool true)),
      ("use_pyarrow", some (.bool false)), ("storage_options", some .none),
      ("skip_rows_after_header", some (.int 0)), ("row_count_name", some .none),
      ("row_count_offset", some (.int 0)), ("sample_size", some (.int 1024)),
      ("eol_char", some (.str "\n")), ("raise_if_empty", some (.bool true))]
  post := .nothing
  body :=
    [own "has_header", own "columns", own "new_columns", own "separator", own "comment_char",
      own "quote_char", own "skip_rows", own "dtypes", own "null_values",
      own "missing_utf8_is_empty_string", own "ignore_errors", own "try_parse_dates",
      own "n_threads", own "infer_schema_length", own "batch_size", own "n_rows", own "encoding",
      own "low_memory", own "rechunk", own "use_pyarrow", own "storage_options",
      own "skip_rows_after_header", own "row_count_name", own "row_count_offset", own "eol_char",
      own "raise_if_empty"]
  calls :=
    [{ function := "pl.read_csv", positional := ["file"],
        named := [], pick := .all }]
  metadata := .file "file"

/-- `PolarsCSVWriter`, polars_post_1_0_0_extensions.py:164-223: `_get_saving_kwargs` lines
187-213, `save_data` lines 215-219. A lazy frame is collected first, which is left out. -/
def polarsCSVWriter : Adapter where
  name := "polars_post_1_0_0_extensions.PolarsCSVWriter"
  fields :=
    [("file", none), ("include_header", some (.bool true)), ("separator", some (.str ",")),
      ("line_terminator", some (.str "\n")), ("quote_char", some (.str "\"")),
      ("batch_size", some (.int 1024)), ("datetime_format", some .none),
      ("date_format", some .none), ("time_format", some .none), ("float_precision", some .none),
      ("null_value", some .none), ("quote_style", some .none)]
  post := .nothing
  body :=
    [own "separator", own "include_header", own "separator", own "line_terminator",
      own "quote_char", own "batch_size", own "datetime_format", own "date_format",
      own "time_format", own "float_precision", own "null_value", own "quote_style"]
  calls :=
    [{ function := "data.write_csv", positional := ["file"],
        named := [], pick := .all }]
  metadata := .file "file"

/-- `PolarsParquetReader`, polars_post_1_0_0_extensions.py:227-286: `_get_loading_kwargs` lines
251-277, `load_data` lines 279-282. -/
def polarsParquetReader : Adapter where
  name := "polars_post_1_0_0_extensions.PolarsParquetReader"
  fields :=
    [("file", none), ("columns", some .none), ("n_rows", some .none),
      ("use_pyarrow", some (.bool false)), ("memory_map", some (.bool true)),
      ("storage_options", some .none), ("parallel", some (.str "auto")),
      ("row_count_name", some .none), ("row_count_offset", some (.int 0)),
      ("low_memory", some (.bool false)), ("pyarrow_options", some .none),
      ("use_statistics", some (.bool true)), ("rechunk", some (.bool true))]
  post := .nothing
  body :=
    [own "columns", own "n_rows", own "use_pyarrow", own "memory_map", own "storage_options",
      own "parallel", own "row_count_name", own "row_count_offset", own "low_memory",
      own "pyarrow_options", own "use_statistics", own "rechunk"]
  calls :=
    [{ function := "pl.read_parquet", positional := ["file"],
        named := [], pick := .all }]
  metadata := .file "file"

/-- `PolarsParquetWriter`, polars_post_1_0_0_extensions.py:290-334: `_get_saving_kwargs` lines
308-322, `save_data` lines 324-330. A lazy frame is collected first, which is left out. -/
def polarsParquetWriter : Adapter where
  name := "polars_post_1_0_0_extensions.PolarsParquetWriter"
  fields :=
    [("file", none), ("compression", some (.str "zstd")), ("compression_level", some .none),
      ("statistics", some (.bool false)), ("row_group_size", some .none),
      ("use_pyarrow", some (.bool false)), ("pyarrow_options", some .none)]
  post := .nothing
  body :=
    [own "compression", .set [.notNone "compression"] "compression_level" "compression_level",
      .set [.notNone "compression"] "statistics" "statistics",
      .set [.notNone "compression"] "row_group_size" "row_group_size",
      .set [.notNone "compression"] "use_pyarrow" "use_pyarrow",
      .set [.notNone "compression"] "pyarrow_options" "pyarrow_options"]
  calls :=
    [{ function := "data.write_parquet", positional := ["file"],
        named := [], pick := .all }]
  metadata := .file "file"

/-- `PolarsFeatherReader`, polars_post_1_0_0_extensions.py:338-386: `_get_loading_kwargs` lines
359-377, `load_data` lines 379-382. -/
def polarsFeatherReader : Adapter where
  name := "polars_post_1_0_0_extensions.PolarsFeatherReader"
  fields :=
    [("source", none), ("columns", some .none), ("n_rows", some .none),
      ("use_pyarrow", some (.bool false)), ("memory_map", some (.bool true)),
      ("storage_options", some .none), ("row_count_name", some .none),
      ("row_count_offset", some (.int 0)), ("rechunk", some (.bool true))]
  post := .nothing
  body :=
    [own "columns", own "n_rows", own "use_pyarrow", own "memory_map", own "storage_options",
      own "row_count_name", own "row_count_offset", own "rechunk"]
  calls :=
    [{ function := "pl.read_ipc", positional := ["source"],
        named := [], pick := .all }]
  metadata := .file "source"

/-- `PolarsFeatherWriter`, polars_post_1_0_0_extensions.py:390-418: `_get_saving_kwargs` lines
404-408, `save_data` lines 410-414. A lazy frame is collected first, which is left out. -/
def polarsFeatherWriter : Adapter where
  name := "polars_post_1_0_0_extensions.PolarsFeatherWriter"
  fields :=
    [("file", some .none), ("compression", some (.str "uncompressed"))]
  post := .nothing
  body :=
    [own "compression"]
  calls :=
    [{ function := "data.write_ipc", positional := ["file"],
        named := [], pick := .all }]
  metadata := .file "file"

/-- `PolarsAvroReader`, polars_post_1_0_0_extensions.py:422-451: `_get_loading_kwargs` lines
436-442, `load_data` lines 444-447. -/
def polarsAvroReader : Adapter where
  name := "polars_post_1_0_0_extensions.PolarsAvroReader"
  fields :=
    [("file", none), ("columns", some .none), ("n_rows", some .none)]
  post := .nothing
  body :=
    [own "columns", own "n_rows"]
  calls :=
    [{ function := "pl.read_avro", positional := ["file"],
        named := [], pick := .all }]
  metadata := .file "file"

/-- `PolarsAvroWriter`, polars_post_1_0_0_extensions.py:455-483: `_get_saving_kwargs` lines
468-472, `save_data` lines 474-479. A lazy frame is collected first, which is left out. -/
def polarsAvroWriter : Adapter where
  name := "polars_post_1_0_0_extensions.PolarsAvroWriter"
  fields :=
    [("file", none), ("compression", some (.str "uncompressed"))]
  post := .nothing
  body :=
    [own "compression"]
  calls :=
    [{ function := "data.write_avro", positional := ["file"],
        named := [], pick := .all }]
  metadata := .file "file"

/-- `PolarsJSONReader`, polars_post_1_0_0_extensions.py:487-516: `_get_loading_kwargs` lines
501-507, `load_data` lines 509-512. -/
def polarsJSONReader : Adapter where
  name := "polars_post_1_0_0_extensions.PolarsJSONReader"
  fields :=
    [("source", none), ("schema", some .none), ("schema_overrides", some .none)]
  post := .nothing
  body :=
    [own "schema", own "schema_overrides"]
  calls :=
    [{ function := "pl.read_json", positional := ["source"],
        named := [], pick := .all }]
  metadata := .file "source"

/-- `PolarsJSONWriter`, polars_post_1_0_0_extensions.py:520-541: `save_data` lines 532-537. A lazy
frame is collected first, which is left out. -/
def polarsJSONWriter : Adapter where
  name := "polars_post_1_0_0_extensions.PolarsJSONWriter"
  fields :=
    [("file", none)]
  post := .nothing
  body := []
  calls :=
    [{ function := "data.write_json", positional := ["file"],
        named := [], pick := .only [] }]
  metadata := .file "file"

/-- `PolarsSpreadsheetReader`, polars_post_1_0_0_extensions.py:545-590: `_get_loading_kwargs`
lines 565-581, `load_data` lines 583-586. -/
def polarsSpreadsheetReader : Adapter where
  name := "polars_post_1_0_0_extensions.PolarsSpreadsheetReader"
  fields :=
    [("source", none), ("sheet_id", some .none), ("sheet_name", some .none),
      ("engine", some (.str "xlsx2csv")), ("engine_options", some .none),
      ("read_options", some .none), ("schema_overrides", some .none),
      ("raise_if_empty", some (.bool true))]
  post := .nothing
  body :=
    [own "sheet_id", own "sheet_name", own "engine", own "engine_options", own "read_options",
      own "schema_overrides", own "raise_if_empty"]
  calls :=
    [{ function := "pl.read_excel", positional := ["source"],
        named := [], pick := .all }]
  metadata := .file "source"

/-- `PolarsSpreadsheetWriter`, polars_post_1_0_0_extensions.py:594-700: `_get_saving_kwargs` lines
645-689, `save_data` lines 691-696. A lazy frame is collected first, which is left out. -/
def polarsSpreadsheetWriter : Adapter where
  name := "polars_post_1_0_0_extensions.PolarsSpreadsheetWriter"
  fields :=
    [("workbook", none), ("worksheet", some .none), ("position", some (.str "A1")),
      ("table_style", some .none), ("table_name", some .none), ("column_formats", some .none),
      ("dtype_formats", some .none), ("conditional_formats", some .none),
      ("header_format", some .none), ("column_totals", some .none), ("column_widths", some .none),
      ("row_totals", some .none), ("row_heights", some .none), ("sparklines", some .none),
      ("formulas", some .none), ("float_precision", some (.int 3)),
      ("include_header", some (.bool true)), ("autofilter", some (.bool true)),
      ("autofit", some (.bool false)), ("hidden_columns", some .none),
      ("hide_gridlines", some .none), ("sheet_zoom", some .none), ("freeze_panes", some .none)]
  post := .nothing
  body :=
    [own "position", own "table_style", own "table_name", own "column_formats",
      own "dtype_formats", own "conditional_formats", own "header_format", own "column_totals",
      own "column_widths", own "row_totals", own "row_heights", own "sparklines", own "formulas",
      own "float_precision", own "include_header", own "autofilter", own "autofit",
      own "hidden_columns", own "hide_gridlines", own "sheet_zoom", own "freeze_panes"]
  calls :=
    [{ function := "data.write_excel", positional := ["workbook", "worksheet"],
        named := [], pick := .all }]
  metadata := .file "workbook"

/-- `PolarsDatabaseReader`, polars_post_1_0_0_extensions.py:704-747: `_get_loading_kwargs` lines
722-734, `load_data` lines 736-743. -/
def polarsDatabaseReader : Adapter where
  name := "polars_post_1_0_0_extensions.PolarsDatabaseReader"
  fields :=
    [("query", none), ("connection", none), ("iter_batches", some (.bool false)),
      ("batch_size", some .none), ("schema_overrides", some .none),
      ("infer_schema_length", some .none), ("execute_options", some .none)]
  post := .nothing
  body :=
    [own "iter_batches", own "batch_size", own "schema_overrides", own "infer_schema_length",
      own "execute_options"]
  calls :=
    [{ function := "pl.read_database", positional := [],
        named := [("query", "query"), ("connection", "connection")], pick := .all }]
  metadata := .file "query"

/-- `PolarsDatabaseWriter`, polars_post_1_0_0_extensions.py:751-786: `_get_saving_kwargs` lines
765-771, `save_data` lines 773-782. A lazy frame is collected first, which is left out. -/
def polarsDatabaseWriter : Adapter where
  name := "polars_post_1_0_0_extensions.PolarsDatabaseWriter"
  fields :=
    [("table_name", none), ("connection", none), ("if_table_exists", some (.str "fail")),
      ("engine", some (.str "sqlalchemy"))]
  post := .nothing
  body :=
    [own "if_table_exists", own "engine"]
  calls :=
    [{ function := "data.write_database", positional := [],
        named := [("table_name", "table_name"), ("connection", "connection")], pick := .all }]
  metadata := .file "table_name"

/-- `PolarsCSVReader`, polars_pre_1_0_0_extension.py:71-175: `_get_loading_kwargs` lines 111-165,
`load_data` lines 167-171. -/
def prePolarsCSVReader : Adapter where
  name := "polars_pre_1_0_0_extension.PolarsCSVReader"
  fields :=
    [("file", none), ("has_header", some (.bool true)), ("include_header", some (.bool true)),
      ("columns", some .none), ("new_columns", some .none), ("separator", some (.str ",")),
      ("comment_char", some .none), ("quote_char", some (.str "\"")),
      ("skip_rows", some (.int 0)), ("dtypes", some .none), ("null_values", some .none),
      ("missing_utf8_is_empty_string", some (.bool false)), ("ignore_errors", some (.bool false)),
      ("try_parse_dates", some (.bool false)), ("n_threads", some .none),
      ("infer_schema_length", some (.int 100)), ("batch_size", some (.int 8192)),
      ("n_rows", some .none), ("encoding", some (.str "utf8")),
      ("low_memory", some (.bool false)), ("rechunk", some (.bool true)),
      ("use_pyarrow", some (.bool false)), ("storage_options", some .none),
      ("skip_rows_after_header", some (.int 0)), ("row_count_name", some .none),
      ("row_count_offset", some (.int 0)), ("sample_size", some (.int 1024)),
      ("eol_char", some (.str "\n")), ("raise_if_empty", some (.bool true))]
  post := .nothing
  body :=
    [own "has_header", own "columns", own "new_columns", own "separator", own "comment_char",
      own "quote_char", own "skip_rows", own "dtypes", own "null_values",
      own "missing_utf8_is_empty_string", own "ignore_errors", own "try_parse_dates",
      own "n_threads", own "infer_schema_length", own "batch_size", own "n_rows", own "encoding",
      own "low_memory", own "rechunk", own "use_pyarrow", own "storage_options",
      own "skip_rows_after_header", own "row_count_name", own "row_count_offset", own "eol_char",
      own "raise_if_empty"]
  calls :=
    [{ function := "pl.read_csv", positional := ["file"],
        named := [], pick := .all }]
  metadata := .file "file"

/-- `PolarsCSVWriter`, polars_pre_1_0_0_extension.py:179-238: `_get_saving_kwargs` lines 202-228,
`save_data` lines 230-234. A lazy frame is collected first, which is left out. -/
def prePolarsCSVWriter : Adapter where
  name := "polars_pre_1_0_0_extension.PolarsCSVWriter"
  fields :=
    [("file", none), ("has_header", some (.bool true)), ("separator", some (.str ",")),
      ("line_terminator", some (.str "\n")), ("quote", some (.str "\"")),
      ("batch_size", some (.int 1024)), ("datetime_format", some .none),
      ("date_format", some .none), ("time_format", some .none), ("float_precision", some .none),
      ("null_value", some .none), ("quote_style", some .none)]
  post := .nothing
  body :=
    [own "separator", own "has_header", own "separator", own "line_terminator", own "quote",
      own "batch_size", own "datetime_format", own "date_format", own "time_format",
      own "float_precision", own "null_value", own "quote_style"]
  calls :=
    [{ function := "data.write_csv", positional := ["file"],
        named := [], pick := .all }]
  metadata := .file "file"

/-- `PolarsParquetReader`, polars_pre_1_0_0_extension.py:242-301: `_get_loading_kwargs` lines
266-292, `load_data` lines 294-297. -/
def prePolarsParquetReader : Adapter where
  name := "polars_pre_1_0_0_extension.PolarsParquetReader"
  fields :=
    [("file", none), ("columns", some .none), ("n_rows", some .none),
      ("use_pyarrow", some (.bool false)), ("memory_map", some (.bool true)),
      ("storage_options", some .none), ("parallel", some (.str "auto")),
      ("row_count_name", some .none), ("row_count_offset", some (.int 0)),
      ("low_memory", some (.bool false)), ("pyarrow_options", some .none),
      ("use_statistics", some (.bool true)), ("rechunk", some (.bool true))]
  post := .nothing
  body :=
    [own "columns", own "n_rows", own "use_pyarrow", own "memory_map", own "storage_options",
      own "parallel", own "row_count_name", own "row_count_offset", own "low_memory",
      own "pyarrow_options", own "use_statistics", own "rechunk"]
  calls :=
    [{ function := "pl.read_parquet", positional := ["file"],
        named := [], pick := .all }]
  metadata := .file "file"

/-- `PolarsParquetWriter`, polars_pre_1_0_0_extension.py:305-349: `_get_saving_kwargs` lines
323-337, `save_data` lines 339-345. A lazy frame is collected first, which is left out. -/
def prePolarsParquetWriter : Adapter where
  name := "polars_pre_1_0_0_extension.PolarsParquetWriter"
  fields :=
    [("file", none), ("compression", some (.str "zstd")), ("compression_level", some .none),
      ("statistics", some (.bool false)), ("row_group_size", some .none),
      ("use_pyarrow", some (.bool false)), ("pyarrow_options", some .none)]
  post := .nothing
  body :=
    [own "compression", .set [.notNone "compression"] "compression_level" "compression_level",
      .set [.notNone "compression"] "statistics" "statistics",
      .set [.notNone "compression"] "row_group_size" "row_group_size",
      .set [.notNone "compression"] "use_pyarrow" "use_pyarrow",
      .set [.notNone "compression"] "pyarrow_options" "pyarrow_options"]
  calls :=
    [{ function := "data.write_parquet", positional := ["file"],
        named := [], pick := .all }]
  metadata := .file "file"

/-- `PolarsFeatherReader`, polars_pre_1_0_0_extension.py:353-401: `_get_loading_kwargs` lines
374-392, `load_data` lines 394-397. -/
def prePolarsFeatherReader : Adapter where
  name := "polars_pre_1_0_0_extension.PolarsFeatherReader"
  fields :=
    [("source", none), ("columns", some .none), ("n_rows", some .none),
      ("use_pyarrow", some (.bool false)), ("memory_map", some (.bool true)),
      ("storage_options", some .none), ("row_count_name", some .none),
      ("row_count_offset", some (.int 0)), ("rechunk", some (.bool true))]
  post := .nothing
  body :=
    [own "columns", own "n_rows", own "use_pyarrow", own "memory_map", own "storage_options",
      own "row_count_name", own "row_count_offset", own "rechunk"]
  calls :=
    [{ function := "pl.read_ipc", positional := ["source"],
        named := [], pick := .all }]
  metadata := .file "source"

/-- `PolarsFeatherWriter`, polars_pre_1_0_0_extension.py:405-433: `_get_saving_kwargs` lines
419-423, `save_data` lines 425-429. A lazy frame is collected first, which is left out. -/
def prePolarsFeatherWriter : Adapter where
  name := "polars_pre_1_0_0_extension.PolarsFeatherWriter"
  fields :=
    [("file", some .none), ("compression", some (.str "uncompressed"))]
  post := .nothing
  body :=
    [own "compression"]
  calls :=
    [{ function := "data.write_ipc", positional := ["file"],
        named := [], pick := .all }]
  metadata := .file "file"

/-- `PolarsAvroReader`, polars_pre_1_0_0_extension.py:437-466: `_get_loading_kwargs` lines
451-457, `load_data` lines 459-462. -/
def prePolarsAvroReader : Adapter where
  name := "polars_pre_1_0_0_extension.PolarsAvroReader"
  fields :=
    [("file", none), ("columns", some .none), ("n_rows", some .none)]
  post := .nothing
  body :=
    [own "columns", own "n_rows"]
  calls :=
    [{ function := "pl.read_avro", positional := ["file"],
        named := [], pick := .all }]
  metadata := .file "file"

/-- `PolarsAvroWriter`, polars_pre_1_0_0_extension.py:470-498: `_get_saving_kwargs` lines 483-487,
`save_data` lines 489-494. A lazy frame is collected first, which is left out. -/
def prePolarsAvroWriter : Adapter where
  name := "polars_pre_1_0_0_extension.PolarsAvroWriter"
  fields :=
    [("file", none), ("compression", some (.str "uncompressed"))]
  post := .nothing
  body :=
    [own "compression"]
  calls :=
    [{ function := "data.write_avro", positional := ["file"],
        named := [], pick := .all }]
  metadata := .file "file"

/-- `PolarsJSONReader`, polars_pre_1_0_0_extension.py:502-531: `_get_loading_kwargs` lines
516-522, `load_data` lines 524-527. -/
def prePolarsJSONReader : Adapter where
  name := "polars_pre_1_0_0_extension.PolarsJSONReader"
  fields :=
    [("source", none), ("schema", some .none), ("schema_overrides", some .none)]
  post := .nothing
  body :=
    [own "schema", own "schema_overrides"]
  calls :=
    [{ function := "pl.read_json", positional := ["source"],
        named := [], pick := .all }]
  metadata := .file "source"

/-- `PolarsJSONWriter`, polars_pre_1_0_0_extension.py:535-566: `_get_saving_kwargs` lines 549-555,
`save_data` lines 557-562. A lazy frame is collected first, which is left out. -/
def prePolarsJSONWriter : Adapter where
  name := "polars_pre_1_0_0_extension.PolarsJSONWriter"
  fields :=
    [("file", none), ("pretty", some (.bool false)), ("row_oriented", some (.bool false))]
  post := .nothing
  body :=
    [own "pretty", own "row_oriented"]
  calls :=
    [{ function := "data.write_json", positional := ["file"],
        named := [], pick := .all }]
  metadata := .file "file"

/-- `PolarsSpreadsheetReader`, polars_pre_1_0_0_extension.py:570-615: `_get_loading_kwargs` lines
590-606, `load_data` lines 608-611. -/
def prePolarsSpreadsheetReader : Adapter where
  name := "polars_pre_1_0_0_extension.PolarsSpreadsheetReader"
  fields :=
    [("source", none), ("sheet_id", some .none), ("sheet_name", some .none),
      ("engine", some (.str "xlsx2csv")), ("engine_options", some .none),
      ("read_options", some .none), ("schema_overrides", some .none),
      ("raise_if_empty", some (.bool true))]
  post := .nothing
  body :=
    [own "sheet_id", own "sheet_name", own "engine", own "engine_options", own "read_options",
      own "schema_overrides", own "raise_if_empty"]
  calls :=
    [{ function := "pl.read_excel", positional := ["source"],
        named := [], pick := .all }]
  metadata := .file "source"

/-- `PolarsSpreadsheetWriter`, polars_pre_1_0_0_extension.py:619-725: `_get_saving_kwargs` lines
670-714, `save_data` lines 716-721. A lazy frame is collected first, which is left out. -/
def prePolarsSpreadsheetWriter : Adapter where
  name := "polars_pre_1_0_0_extension.PolarsSpreadsheetWriter"
  fields :=
    [("workbook", none), ("worksheet", some .none), ("position", some (.str "A1")),
      ("table_style", some .none), ("table_name", some .none), ("column_formats", some .none),
      ("dtype_formats", some .none), ("conditional_formats", some .none),
      ("header_format", some .none), ("column_totals", some .none), ("column_widths", some .none),
      ("row_totals", some .none), ("row_heights", some .none), ("sparklines", some .none),
      ("formulas", some .none), ("float_precision", some (.int 3)),
      ("include_header", some (.bool true)), ("autofilter", some (.bool true)),
      ("autofit", some (.bool false)), ("hidden_columns", some .none),
      ("hide_gridlines", some .none), ("sheet_zoom", some .none), ("freeze_panes", some .none)]
  post := .nothing
  body :=
    [own "position", own "table_style", own "table_name", own "column_formats",
      own "dtype_formats", own "conditional_formats", own "header_format", own "column_totals",
      own "column_widths", own "row_totals", own "row_heights", own "sparklines", own "formulas",
      own "float_precision", own "include_header", own "autofilter", own "autofit",
      own "hidden_columns", own "hide_gridlines", own "sheet_zoom", own "freeze_panes"]
  calls :=
    [{ function := "data.write_excel", positional := ["workbook", "worksheet"],
        named := [], pick := .all }]
  metadata := .file "workbook"

/-- `PolarsDatabaseReader`, polars_pre_1_0_0_extension.py:729-772: `_get_loading_kwargs` lines
747-759, `load_data` lines 761-768. -/
def prePolarsDatabaseReader : Adapter where
  name := "polars_pre_1_0_0_extension.PolarsDatabaseReader"
  fields :=
    [("query", none), ("connection", none), ("iter_batches", some (.bool false)),
      ("batch_size", some .none), ("schema_overrides", some .none),
      ("infer_schema_length", some .none), ("execute_options", some .none)]
  post := .nothing
  body :=
    [own "iter_batches", own "batch_size", own "schema_overrides", own "infer_schema_length",
      own "execute_options"]
  calls :=
    [{ function := "pl.read_database", positional := [],
        named := [("query", "query"), ("connection", "connection")], pick := .all }]
  metadata := .file "query"

/-- `PolarsDatabaseWriter`, polars_pre_1_0_0_extension.py:776-811: `_get_saving_kwargs` lines
790-796, `save_data` lines 798-807. A lazy frame is collected first, which is left out. -/
def prePolarsDatabaseWriter : Adapter where
  name := "polars_pre_1_0_0_extension.PolarsDatabaseWriter"
  fields :=
    [("table_name", none), ("connection", none), ("if_table_exists", some (.str "fail")),
      ("engine", some (.str "sqlalchemy"))]
  post := .nothing
  body :=
    [own "if_table_exists", own "engine"]
  calls :=
    [{ function := "data.write_database", positional := [],
        named := [("table_name", "table_name"), ("connection", "connection")], pick := .all }]
  metadata := .file "table_name"

/-- The adapters above (polars_lazyframe_extensions.py, polars_post_1_0_0_extensions.py, polars_pre_1_0_0_extension.py). -/
def polarsAdapters : List Adapter :=
  [polarsScanCSVReader, polarsScanParquetReader, polarsScanFeatherReader, polarsCSVReader,
    polarsCSVWriter, polarsParquetReader, polarsParquetWriter, polarsFeatherReader,
    polarsFeatherWriter, polarsAvroReader, polarsAvroWriter, polarsJSONReader, polarsJSONWriter,
    polarsSpreadsheetReader, polarsSpreadsheetWriter, polarsDatabaseReader, polarsDatabaseWriter,
    prePolarsCSVReader, prePolarsCSVWriter, prePolarsParquetReader, prePolarsParquetWriter,
    prePolarsFeatherReader, prePolarsFeatherWriter, prePolarsAvroReader, prePolarsAvroWriter,
    prePolarsJSONReader, prePolarsJSONWriter, prePolarsSpreadsheetReader,
    prePolarsSpreadsheetWriter, prePolarsDatabaseReader, prePolarsDatabaseWriter]

end Verif.Options
