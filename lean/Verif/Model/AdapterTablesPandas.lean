import Verif.Model.AdapterOptions

/-! The data adapters of the pandas plugin. -/

namespace Verif.Options

/-- `PandasCSVReader`, pandas_extensions.py:90-255: `_get_loading_kwargs` lines 155-246,
`load_data` lines 248-251. -/
def pandasCSVReader : Adapter where
  name := "pandas_extensions.PandasCSVReader"
  fields :=
    [("path", none), ("sep", some (.str ",")), ("delimiter", some .none),
      ("header", some (.str "infer")), ("names", some .none), ("index_col", some .none),
      ("usecols", some .none), ("dtype", some .none), ("engine", some .none),
      ("converters", some .none), ("true_values", some .none), ("false_values", some .none),
      ("skipinitialspace", some (.bool false)), ("skiprows", some .none),
      ("skipfooter", some (.int 0)), ("nrows", some .none), ("na_values", some .none),
      ("keep_default_na", some (.bool true)), ("na_filter", some (.bool true)),
      ("verbose", some (.bool false)), ("skip_blank_lines", some (.bool true)),
      ("parse_dates", some (.bool false)), ("keep_date_col", some (.bool false)),
      ("date_format", some .none), ("dayfirst", some (.bool false)),
      ("cache_dates", some (.bool true)), ("iterator", some (.bool false)),
      ("chunksize", some .none), ("compression", some (.str "infer")), ("thousands", some .none),
      ("decimal", some (.str ".")), ("lineterminator", some .none), ("quotechar", some .none),
      ("quoting", some (.int 0)), ("doublequote", some (.bool true)), ("escapechar", some .none),
      ("comment", some .none), ("encoding", some (.str "utf-8")),
      ("encoding_errors", some (.str "strict")), ("dialect", some .none),
      ("on_bad_lines", some (.str "error")), ("delim_whitespace", some (.bool false)),
      ("low_memory", some (.bool true)), ("memory_map", some (.bool false)),
      ("float_precision", some .none), ("storage_options", some .none),
      ("dtype_backend", some (.str "numpy_nullable"))]
  post := .nothing
  body :=
    [own "sep", own "delimiter", own "header", own "names", own "index_col", own "usecols",
      own "dtype", own "engine", own "converters", own "true_values", own "false_values",
      own "skipinitialspace", own "skiprows", own "nrows", own "na_values", own "keep_default_na",
      own "na_filter", own "verbose", own "skip_blank_lines", own "parse_dates",
      own "keep_date_col", own "date_format", own "dayfirst", own "cache_dates", own "iterator",
      own "chunksize", own "compression", own "thousands", own "lineterminator", own "quotechar",
      own "quoting", own "doublequote", own "escapechar", own "comment", own "encoding",
      own "encoding_errors", own "dialect", own "on_bad_lines", own "delim_whitespace",
      own "low_memory", own "memory_map", own "float_precision", own "storage_options",
      .set [.pandas2, .notNone "dtype_backend"] "dtype_backend" "dtype_backend"]
  calls :=
    [{ function := "pd.read_csv", positional := ["path"],
        named := [], pick := .all }]
  metadata := .file "path"

/-- `PandasCSVWriter`, pandas_extensions.py:259-345: `_get_saving_kwargs` lines 293-337,
`save_data` lines 339-341. -/
def pandasCSVWriter : Adapter where
  name := "pandas_extensions.PandasCSVWriter"
  fields :=
    [("path", none), ("sep", some (.str ",")), ("na_rep", some (.str "")),
      ("float_format", some .none), ("columns", some .none), ("header", some (.bool true)),
      ("index", some (.bool false)), ("index_label", some .none), ("mode", some (.str "w")),
      ("encoding", some .none), ("compression", some (.str "infer")), ("quoting", some .none),
      ("quotechar", some (.str "\"")), ("lineterminator", some .none), ("chunksize", some .none),
      ("date_format", some .none), ("doublequote", some (.bool true)), ("escapechar", some .none),
      ("decimal", some (.str ".")), ("errors", some (.str "strict")),
      ("storage_options", some .none)]
  post := .nothing
  body :=
    [own "sep", own "na_rep", own "float_format", own "columns", own "header", own "index",
      own "index_label", own "mode", own "encoding", own "compression", own "quoting",
      own "quotechar", own "lineterminator", own "chunksize", own "date_format",
      own "doublequote", own "escapechar", own "decimal", own "errors", own "storage_options"]
  calls :=
    [{ function := "data.to_csv", positional := ["path"],
        named := [], pick := .all }]
  metadata := .file "path"

/-- `PandasParquetReader`, pandas_extensions.py:349-395: `_get_loading_kwargs` lines 368-385,
`load_data` lines 387-391. -/
def pandasParquetReader : Adapter where
  name := "pandas_extensions.PandasParquetReader"
  fields :=
    [("path", none), ("engine", some (.str "auto")), ("columns", some .none),
      ("storage_options", some .none), ("use_nullable_dtypes", some (.bool false)),
      ("dtype_backend", some (.str "numpy_nullable")), ("filesystem", some .none),
      ("filters", some .none)]
  post := .nothing
  body :=
    [own "engine", own "columns", own "storage_options",
      .set [.pandas1, .notNone "use_nullable_dtypes"] "use_nullable_dtypes" "use_nullable_dtypes",
      .set [.pandas2, .notNone "dtype_backend"] "dtype_backend" "dtype_backend", own "filesystem",
      own "filters"]
  calls :=
    [{ function := "pd.read_parquet", positional := ["path"],
        named := [], pick := .all }]
  metadata := .file "path"

/-- `PandasParquetWriter`, pandas_extensions.py:399-440: `_get_saving_kwargs` lines 417-432,
`save_data` lines 434-436. -/
def pandasParquetWriter : Adapter where
  name := "pandas_extensions.PandasParquetWriter"
  fields :=
    [("path", none), ("engine", some (.str "auto")), ("compression", some (.str "snappy")),
      ("index", some .none), ("partition_cols", some .none), ("storage_options", some .none),
      ("extra_kwargs", some .none)]
  post := .nothing
  body :=
    [own "engine", own "compression", own "index", own "partition_cols", own "storage_options",
      .update "extra_kwargs"]
  calls :=
    [{ function := "data.to_parquet", positional := ["path"],
        named := [], pick := .all }]
  metadata := .file "path"

/-- `PandasPickleReader`, pandas_extensions.py:444-492: `_get_loading_kwargs` lines 462-469,
`load_data` lines 471-475, `__post_init__` lines 481-492. -/
def pandasPickleReader : Adapter where
  name := "pandas_extensions.PandasPickleReader"
  fields :=
    [("filepath_or_buffer", some .none), ("path", some .none),
      ("compression", some (.str "infer")), ("storage_options", some .none)]
  post := .oneOf "filepath_or_buffer" "path"
  body :=
    [own "compression", own "storage_options"]
  calls :=
    [{ function := "pd.read_pickle", positional := ["filepath_or_buffer"],
        named := [], pick := .all }]
  metadata := .file "filepath_or_buffer"

/-- `PandasPickleWriter`, pandas_extensions.py:499-531: `_get_saving_kwargs` lines 514-523,
`save_data` lines 525-527. -/
def pandasPickleWriter : Adapter where
  name := "pandas_extensions.PandasPickleWriter"
  fields :=
    [("path", none), ("compression", some (.str "infer")), ("protocol", some (.int 5)),
      ("storage_options", some .none)]
  post := .nothing
  body :=
    [own "compression", own "protocol", own "storage_options"]
  calls :=
    [{ function := "data.to_pickle", positional := ["path"],
        named := [], pick := .all }]
  metadata := .file "path"

/-- `PandasJsonReader`, pandas_extensions.py:535-614: `_get_loading_kwargs` lines 569-605,
`load_data` lines 607-610. -/
def pandasJsonReader : Adapter where
  name := "pandas_extensions.PandasJsonReader"
  fields :=
    [("filepath_or_buffer", none), ("chunksize", some .none),
      ("compression", some (.str "infer")), ("convert_axes", some .none),
      ("convert_dates", some (.bool true)), ("date_unit", some .none), ("dtype", some .none),
      ("dtype_backend", some .none), ("encoding", some .none),
      ("encoding_errors", some (.str "strict")), ("engine", some (.str "ujson")),
      ("keep_default_dates", some (.bool true)), ("lines", some (.bool false)),
      ("nrows", some .none), ("orient", some .none), ("precise_float", some (.bool false)),
      ("storage_options", some .none), ("typ", some (.str "frame"))]
  post := .nothing
  body :=
    [own "chunksize", own "compression", own "convert_axes", own "convert_dates",
      own "date_unit", own "dtype",
      .set [.pandas2, .notNone "dtype_backend"] "dtype_backend" "dtype_backend", own "encoding",
      own "encoding_errors", own "engine", own "keep_default_dates", own "lines", own "nrows",
      own "orient", own "precise_float", own "storage_options", own "typ"]
  calls :=
    [{ function := "pd.read_json", positional := ["filepath_or_buffer"],
        named := [], pick := .all }]
  metadata := .file "filepath_or_buffer"

/-- `PandasJsonWriter`, pandas_extensions.py:618-681: `_get_saving_kwargs` lines 647-673,
`save_data` lines 675-677. -/
def pandasJsonWriter : Adapter where
  name := "pandas_extensions.PandasJsonWriter"
  fields :=
    [("filepath_or_buffer", none), ("compression", some (.str "infer")),
      ("date_format", some (.str "epoch")), ("date_unit", some (.str "ms")),
      ("default_handler", some .none), ("double_precision", some (.int 10)),
      ("force_ascii", some (.bool true)), ("index", some .none), ("indent", some (.int 0)),
      ("lines", some (.bool false)), ("mode", some (.str "w")), ("orient", some .none),
      ("storage_options", some .none)]
  post := .nothing
  body :=
    [own "compression", own "date_format", own "date_unit", own "default_handler",
      own "double_precision", own "force_ascii", own "index", own "indent",
      .set [.notFalse "lines"] "lines" "lines", own "mode", own "orient", own "storage_options"]
  calls :=
    [{ function := "data.to_json", positional := ["filepath_or_buffer"],
        named := [], pick := .all }]
  metadata := .file "filepath_or_buffer"

/-- `PandasSqlReader`, pandas_extensions.py:685-740: `_get_loading_kwargs` lines 712-730,
`load_data` lines 732-736. -/
def pandasSqlReader : Adapter where
  name := "pandas_extensions.PandasSqlReader"
  fields :=
    [("query_or_table", none), ("db_connection", none), ("chunksize", some .none),
      ("coerce_float", some (.bool true)), ("columns", some .none), ("dtype", some .none),
      ("dtype_backend", some .none), ("index_col", some .none), ("params", some .none),
      ("parse_dates", some .none)]
  post := .nothing
  body :=
    [own "chunksize", own "coerce_float", own "columns", own "dtype",
      .set [.pandas2, .notNone "dtype_backend"] "dtype_backend" "dtype_backend", own "index_col",
      own "params", own "parse_dates"]
  calls :=
    [{ function := "pd.read_sql", positional := ["query_or_table", "db_connection"],
        named := [], pick := .all }]
  metadata := .sql "query_or_table"

/-- `PandasSqlWriter`, pandas_extensions.py:744-796: `_get_saving_kwargs` lines 770-786,
`save_data` lines 788-792. -/
def pandasSqlWriter : Adapter where
  name := "pandas_extensions.PandasSqlWriter"
  fields :=
    [("table_name", none), ("db_connection", none), ("chunksize", some .none),
      ("dtype", some .none), ("if_exists", some (.str "fail")), ("index", some (.bool true)),
      ("index_label", some .none), ("method", some .none), ("schema", some .none)]
  post := .nothing
  body :=
    [own "chunksize", own "dtype", own "if_exists", own "index", own "index_label", own "method",
      own "schema"]
  calls :=
    [{ function := "data.to_sql", positional := ["table_name", "db_connection"],
        named := [], pick := .all }]
  metadata := .sql "table_name"

/-- `PandasXmlReader`, pandas_extensions.py:800-875: `_get_loading_kwargs` lines 829-865,
`load_data` lines 867-871. -/
def pandasXmlReader : Adapter where
  name := "pandas_extensions.PandasXmlReader"
  fields :=
    [("path_or_buffer", none), ("xpath", some (.str "./*")), ("namespace", some .none),
      ("elems_only", some (.bool false)), ("attrs_only", some (.bool false)),
      ("names", some .none), ("dtype", some .none), ("converters", some .none),
      ("parse_dates", some (.bool false)), ("encoding", some (.str "utf-8")),
      ("parser", some (.str "lxml")), ("stylesheet", some .none), ("iterparse", some .none),
      ("compression", some (.str "infer")), ("storage_options", some .none),
      ("dtype_backend", some (.str "numpy_nullable"))]
  post := .nothing
  body :=
    [own "xpath", own "namespace", own "elems_only", own "attrs_only", own "names", own "dtype",
      own "converters", own "parse_dates", own "encoding", own "parser", own "encoding",
      own "parser", own "stylesheet", own "iterparse", own "compression", own "storage_options",
      .set [.pandas2, .notNone "dtype_backend"] "dtype_backend" "dtype_backend"]
  calls :=
    [{ function := "pd.read_xml", positional := ["path_or_buffer"],
        named := [], pick := .all }]
  metadata := .file "path_or_buffer"

/-- `PandasXmlWriter`, pandas_extensions.py:879-948: `_get_saving_kwargs` lines 908-940,
`save_data` lines 942-944. -/
def pandasXmlWriter : Adapter where
  name := "pandas_extensions.PandasXmlWriter"
  fields :=
    [("path_or_buffer", none), ("index", some (.bool true)), ("root_name", some (.str "data")),
      ("row_name", some (.str "row")), ("na_rep", some .none), ("attr_cols", some .none),
      ("elems_cols", some .none), ("namespaces", some .none), ("prefix", some .none),
      ("encoding", some (.str "utf-8")), ("xml_declaration", some (.bool true)),
      ("pretty_print", some (.bool true)), ("parser", some (.str "lxml")),
      ("stylesheet", some .none), ("compression", some (.str "infer")),
      ("storage_options", some .none)]
  post := .nothing
  body :=
    [own "index", own "root_name", own "row_name", own "na_rep", own "attr_cols",
      own "elems_cols", own "namespaces", own "prefix", own "encoding", own "xml_declaration",
      own "pretty_print", own "parser", own "stylesheet", own "compression",
      own "storage_options"]
  calls :=
    [{ function := "data.to_xml", positional := ["path_or_buffer"],
        named := [], pick := .all }]
  metadata := .file "path_or_buffer"

/-- `PandasHtmlReader`, pandas_extensions.py:952-1028: `_get_loading_kwargs` lines 981-1018,
`load_data` lines 1020-1024. -/
def pandasHtmlReader : Adapter where
  name := "pandas_extensions.PandasHtmlReader"
  fields :=
    [("io", none), ("match", some (.str ".+")), ("flavor", some .none), ("header", some .none),
      ("index_col", some .none), ("skiprows", some .none), ("attrs", some .none),
      ("parse_dates", some .none), ("thousands", some (.str ",")), ("encoding", some .none),
      ("decimal", some (.str ".")), ("converters", some .none), ("na_values", some .none),
      ("keep_default_na", some (.bool true)), ("displayed_only", some (.bool true)),
      ("extract_links", some .none), ("dtype_backend", some (.str "numpy_nullable")),
      ("storage_options", some .none)]
  post := .nothing
  body :=
    [own "match", own "flavor", own "header", own "index_col", own "skiprows", own "attrs",
      own "parse_dates", own "thousands", own "encoding", own "decimal", own "converters",
      own "na_values", own "keep_default_na", own "displayed_only", own "extract_links",
      .set [.pandas2, .notNone "dtype_backend"] "dtype_backend" "dtype_backend",
      own "storage_options"]
  calls :=
    [{ function := "pd.read_html", positional := ["io"],
        named := [], pick := .all }]
  metadata := .file "io"

/-- `PandasHtmlWriter`, pandas_extensions.py:1032-1121: `_get_saving_kwargs` lines 1066-1113,
`save_data` lines 1115-1117. -/
def pandasHtmlWriter : Adapter where
  name := "pandas_extensions.PandasHtmlWriter"
  fields :=
    [("buf", some .none), ("columns", some .none), ("col_space", some .none),
      ("header", some (.bool true)), ("index", some (.bool true)), ("na_rep", some (.str "NaN")),
      ("formatters", some .none), ("float_format", some .none), ("sparsify", some (.bool true)),
      ("index_names", some (.bool true)), ("justify", some .none), ("max_rows", some .none),
      ("max_cols", some .none), ("show_dimensions", some (.bool false)),
      ("decimal", some (.str ".")), ("bold_rows", some (.bool true)), ("classes", some .none),
      ("escape", some (.bool true)), ("notebook", some (.bool false)), ("border", some .none),
      ("table_id", some .none), ("render_links", some (.bool false)),
      ("encoding", some (.str "utf-8"))]
  post := .nothing
  body :=
    [own "columns", own "col_space", own "header", own "index", own "na_rep", own "formatters",
      own "float_format", own "sparsify", own "index_names", own "justify", own "max_rows",
      own "max_cols", own "show_dimensions", own "decimal", own "bold_rows", own "classes",
      own "escape", own "notebook", own "border", own "table_id", own "render_links",
      own "encoding"]
  calls :=
    [{ function := "data.to_html", positional := ["buf"],
        named := [], pick := .all }]
  metadata := .file "buf"

/-- `PandasStataReader`, pandas_extensions.py:1125-1185: `_get_loading_kwargs` lines 1150-1175,
`load_data` lines 1177-1181. -/
def pandasStataReader : Adapter where
  name := "pandas_extensions.PandasStataReader"
  fields :=
    [("filepath_or_buffer", none), ("convert_dates", some (.bool true)),
      ("convert_categoricals", some (.bool true)), ("index_col", some .none),
      ("convert_missing", some (.bool false)), ("preserve_dtypes", some (.bool true)),
      ("columns", some .none), ("order_categoricals", some (.bool true)),
      ("chunksize", some .none), ("iterator", some (.bool false)),
      ("compression", some (.str "infer")), ("storage_options", some .none)]
  post := .nothing
  body :=
    [own "convert_dates", own "convert_categoricals", own "index_col", own "convert_missing",
      own "preserve_dtypes", own "columns", own "order_categoricals", own "chunksize",
      own "iterator", own "compression", own "storage_options"]
  calls :=
    [{ function := "pd.read_stata", positional := ["filepath_or_buffer"],
        named := [], pick := .all }]
  metadata := .file "filepath_or_buffer"

/-- `PandasStataWriter`, pandas_extensions.py:1189-1247: `_get_saving_kwargs` lines 1214-1239,
`save_data` lines 1241-1243. -/
def pandasStataWriter : Adapter where
  name := "pandas_extensions.PandasStataWriter"
  fields :=
    [("path", some .none), ("convert_dates", some .none), ("write_index", some (.bool true)),
      ("byteorder", some .none), ("time_stamp", some .none), ("data_label", some .none),
      ("variable_labels", some .none), ("version", some (.int 114)), ("convert_strl", some .none),
      ("compression", some (.str "infer")), ("storage_options", some .none),
      ("value_labels", some .none)]
  post := .nothing
  body :=
    [own "convert_dates", own "write_index", own "byteorder", own "time_stamp", own "data_label",
      own "variable_labels", own "version",
      .set [.notNone "convert_strl", .equals "version" 117] "convert_strl" "convert_strl",
      own "compression", own "storage_options", own "value_labels"]
  calls :=
    [{ function := "data.to_stata", positional := ["path"],
        named := [], pick := .all }]
  metadata := .file "path"

/-- `PandasFeatherReader`, pandas_extensions.py:1251-1288: `_get_loading_kwargs` lines 1267-1278,
`load_data` lines 1280-1284. -/
def pandasFeatherReader : Adapter where
  name := "pandas_extensions.PandasFeatherReader"
  fields :=
    [("path", none), ("columns", some .none), ("use_threads", some (.bool true)),
      ("storage_options", some .none), ("dtype_backend", some (.str "numpy_nullable"))]
  post := .nothing
  body :=
    [own "columns", own "use_threads", own "storage_options",
      .set [.pandas2, .notNone "dtype_backend"] "dtype_backend" "dtype_backend"]
  calls :=
    [{ function := "pd.read_feather", positional := ["path"],
        named := [], pick := .all }]
  metadata := .file "path"

/-- `PandasFeatherWriter`, pandas_extensions.py:1292-1333: `_get_saving_kwargs` lines 1312-1325,
`save_data` lines 1327-1329. -/
def pandasFeatherWriter : Adapter where
  name := "pandas_extensions.PandasFeatherWriter"
  fields :=
    [("path", none), ("dest", some .none), ("compression", some .none),
      ("compression_level", some .none), ("chunksize", some .none), ("version", some (.int 2))]
  post := .nothing
  body :=
    [own "dest", own "compression", own "compression_level", own "chunksize", own "version"]
  calls :=
    [{ function := "data.to_feather", positional := ["path"],
        named := [], pick := .all }]
  metadata := .file "path"

/-- `PandasORCReader`, pandas_extensions.py:1337-1372: `_get_loading_kwargs` lines 1353-1362,
`load_data` lines 1364-1368. -/
def pandasORCReader : Adapter where
  name := "pandas_extensions.PandasORCReader"
  fields :=
    [("path", none), ("columns", some .none), ("dtype_backend", some (.str "numpy_nullable")),
      ("filesystem", some .none)]
  post := .nothing
  body :=
    [own "columns", own "dtype_backend", own "filesystem"]
  calls :=
    [{ function := "pd.read_orc", positional := ["path"],
        named := [], pick := .all }]
  metadata := .file "path"

/-- `PandasORCWriter`, pandas_extensions.py:1376-1409: `_get_saving_kwargs` lines 1392-1401,
`save_data` lines 1403-1405. -/
def pandasORCWriter : Adapter where
  name := "pandas_extensions.PandasORCWriter"
  fields :=
    [("path", none), ("engine", some (.str "pyarrow")), ("index", some .none),
      ("engine_kwargs", some .none)]
  post := .nothing
  body :=
    [own "engine", own "index", own "engine_kwargs"]
  calls :=
    [{ function := "data.to_orc", positional := ["path"],
        named := [], pick := .all }]
  metadata := .file "path"

/-- `PandasExcelReader`, pandas_extensions.py:1413-1478: `_get_loading_kwargs` lines 1455-1468,
`load_data` lines 1470-1474. -/
def pandasExcelReader : Adapter where
  name := "pandas_extensions.PandasExcelReader"
  fields :=
    [("path", some .none), ("sheet_name", some (.int 0)), ("header", some (.int 0)),
      ("names", some .none), ("index_col", some .none), ("usecols", some .none),
      ("dtype", some .none), ("engine", some .none), ("converters", some .none),
      ("true_values", some .none), ("false_values", some .none), ("skiprows", some .none),
      ("nrows", some .none), ("keep_default_na", some (.bool true)),
      ("na_filter", some (.bool true)), ("verbose", some (.bool false)),
      ("parse_dates", some (.bool false)), ("date_format", some .none), ("thousands", some .none),
      ("decimal", some (.str ".")), ("comment", some .none), ("skipfooter", some (.int 0)),
      ("storage_options", some .none), ("dtype_backend", some (.str "numpy_nullable")),
      ("engine_kwargs", some .none)]
  post := .nothing
  body :=
    [.asdict, .del "path", .delIfNone "engine_kwargs"]
  calls :=
    [{ function := "pd.read_excel", positional := ["path"],
        named := [], pick := .all }]
  metadata := .file "path"

/-- `writer_kwarg_names`, pandas_extensions.py:1522-1530: the keyword arguments of `ExcelWriter`. -/
def excelWriterKeywords : List Name :=
  ["date_format", "datetime_format", "if_sheet_exists", "mode", "engine_kwargs", "engine",
    "storage_options"]

/-- `PandasExcelWriter`, pandas_extensions.py:1482-1557: `_get_saving_kwargs` lines 1517-1546,
`save_data` lines 1548-1553. The second call gets the writer made by the first as its position
argument, which is left out. -/
def pandasExcelWriter : Adapter where
  name := "pandas_extensions.PandasExcelWriter"
  fields :=
    [("path", none), ("sheet_name", some (.str "Sheet1")), ("na_rep", some (.str "")),
      ("float_format", some .none), ("columns", some .none), ("header", some (.bool true)),
      ("index", some (.bool true)), ("index_label", some .none), ("startrow", some (.int 0)),
      ("startcol", some (.int 0)), ("engine", some .none), ("merge_cells", some (.bool true)),
      ("inf_rep", some (.str "inf")), ("freeze_panes", some .none),
      ("storage_options", some .none), ("engine_kwargs", some .none), ("mode", some (.str "w")),
      ("if_sheet_exists", some .none), ("datetime_format", some .none),
      ("date_format", some .none)]
  post := .nothing
  body :=
    [.asdict, .del "path", .delIfNone "engine_kwargs"]
  calls :=
    [{ function := "pd.ExcelWriter", positional := ["path"],
        named := [], pick := .only excelWriterKeywords },
      { function := "data.to_excel", positional := [],
        named := [], pick := .others excelWriterKeywords }]
  metadata := .file "path"

/-- `PandasTableReader`, pandas_extensions.py:1561-1639: `_get_loading_kwargs` lines 1621-1629,
`load_data` lines 1631-1635. -/
def pandasTableReader : Adapter where
  name := "pandas_extensions.PandasTableReader"
  fields :=
    [("filepath_or_buffer", none), ("sep", some .none), ("delimiter", some .none),
      ("header", some (.str "infer")), ("names", some .none), ("index_col", some .none),
      ("usecols", some .none), ("dtype", some .none), ("engine", some .none),
      ("converters", some .none), ("true_values", some .none), ("false_values", some .none),
      ("skipinitialspace", some (.bool false)), ("skiprows", some .none),
      ("skipfooter", some (.int 0)), ("nrows", some .none), ("na_values", some .none),
      ("keep_default_na", some (.bool true)), ("na_filter", some (.bool true)),
      ("verbose", some (.bool false)), ("skip_blank_lines", some (.bool true)),
      ("parse_dates", some (.bool false)), ("infer_datetime_format", some (.bool false)),
      ("keep_date_col", some (.bool false)), ("date_parser", some .none),
      ("date_format", some .none), ("dayfirst", some (.bool false)),
      ("cache_dates", some (.bool true)), ("iterator", some (.bool false)),
      ("chunksize", some .none), ("compression", some (.str "infer")), ("thousands", some .none),
      ("decimal", some (.str ".")), ("lineterminator", some .none),
      ("quotechar", some (.str "\"")), ("quoting", some (.int 0)),
      ("doublequote", some (.bool true)), ("escapechar", some .none), ("comment", some .none),
      ("encoding", some .none), ("encoding_errors", some (.str "strict")),
      ("dialect", some .none), ("on_bad_lines", some (.str "error")),
      ("delim_whitespace", some (.bool false)), ("low_memory", some (.bool true)),
      ("memory_map", some (.bool false)), ("float_precision", some .none),
      ("storage_options", some .none), ("dtype_backend", some (.str "numpy_nullable"))]
  post := .nothing
  body :=
    [.asdict, .del "filepath_or_buffer"]
  calls :=
    [{ function := "pd.read_table", positional := ["filepath_or_buffer"],
        named := [], pick := .all }]
  metadata := .file "filepath_or_buffer"

/-- `PandasFWFReader`, pandas_extensions.py:1643-1677: `_get_loading_kwargs` lines 1659-1667,
`load_data` lines 1669-1673. -/
def pandasFWFReader : Adapter where
  name := "pandas_extensions.PandasFWFReader"
  fields :=
    [("filepath_or_buffer", none), ("colspecs", some (.str "infer")), ("widths", some .none),
      ("infer_nrows", some (.int 100)), ("dtype_backend", some (.str "numpy_nullable"))]
  post := .nothing
  body :=
    [.asdict, .del "filepath_or_buffer"]
  calls :=
    [{ function := "pd.read_fwf", positional := ["filepath_or_buffer"],
        named := [], pick := .all }]
  metadata := .file "filepath_or_buffer"

/-- `PandasSPSSReader`, pandas_extensions.py:1681-1714: `_get_loading_kwargs` lines 1696-1704,
`load_data` lines 1706-1710. -/
def pandasSPSSReader : Adapter where
  name := "pandas_extensions.PandasSPSSReader"
  fields :=
    [("path", none), ("usecols", some .none), ("convert_categoricals", some (.bool true)),
      ("dtype_backend", some (.str "numpy_nullable"))]
  post := .nothing
  body :=
    [.asdict, .del "path"]
  calls :=
    [{ function := "pd.read_spss", positional := ["path"],
        named := [], pick := .all }]
  metadata := .file "path"

/-- The adapters above (pandas_extensions.py). -/
def pandasAdapters : List Adapter :=
  [pandasCSVReader, pandasCSVWriter, pandasParquetReader, pandasParquetWriter,
    pandasPickleReader, pandasPickleWriter, pandasJsonReader, pandasJsonWriter, pandasSqlReader,
    pandasSqlWriter, pandasXmlReader, pandasXmlWriter, pandasHtmlReader, pandasHtmlWriter,
    pandasStataReader, pandasStataWriter, pandasFeatherReader, pandasFeatherWriter,
    pandasORCReader, pandasORCWriter, pandasExcelReader, pandasExcelWriter, pandasTableReader,
    pandasFWFReader, pandasSPSSReader]

end Verif.Options
