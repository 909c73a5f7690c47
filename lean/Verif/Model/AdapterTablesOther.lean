import Verif.Model.AdapterOptions

/-! The data adapters of the plugins for other libraries. -/

namespace Verif.Options

/-- `DltDestinationSaver`, dlt_extensions.py:82-131: `_get_kwargs` lines 105-116, `save_data`
lines 119-131. The dict check and the use of `pipeline` as the object whose method is called are
left out; so is the metadata. -/
def dltDestinationSaver : Adapter where
  name := "dlt_extensions.DltDestinationSaver"
  fields :=
    [("pipeline", none), ("table_name", none), ("primary_key", some .none),
      ("write_disposition", some .none), ("columns", some .none), ("schema", some .none),
      ("loader_file_format", some .none)]
  post := .nothing
  body :=
    [.changed ["pipeline"]]
  calls :=
    [{ function := "self.pipeline.run", positional := [],
        named := [], pick := .all }]
  metadata := .other

/-- `HuggingFaceDSLoader`, huggingface_extensions.py:50-107: `_get_loading_kwargs` lines 79-92,
`load_data` lines 94-103. The metadata of the dataset is left out. -/
def huggingFaceDSLoader : Adapter where
  name := "huggingface_extensions.HuggingFaceDSLoader"
  fields :=
    [("path", none), ("dataset_name", some .none), ("data_dir", some .none),
      ("data_files", some .none), ("split", some .none), ("cache_dir", some .none),
      ("features", some .none), ("download_config", some .none), ("download_mode", some .none),
      ("verification_mode", some .none), ("keep_in_memory", some .none),
      ("save_infos", some (.bool false)), ("revision", some .none), ("token", some .none),
      ("streaming", some (.bool false)), ("num_proc", some .none),
      ("storage_options", some .none), ("config_kwargs", some .none)]
  post := .nothing
  body :=
    [.asdict, .del "path", .popUpdate "config_kwargs", .rename "name" "dataset_name"]
  calls :=
    [{ function := "load_dataset", positional := ["path"],
        named := [], pick := .all }]
  metadata := .other

/-- `HuggingFaceDSParquetSaver`, huggingface_extensions.py:111-156: `_get_saving_kwargs` lines
126-136, `save_data` lines 138-152. The metadata of the dataset is left out; `isinstance(x,
typing.BinaryIO)` (line 148) holds for no buffer, so every location goes to `get_file_metadata`.
-/
def huggingFaceDSParquetSaver : Adapter where
  name := "huggingface_extensions.HuggingFaceDSParquetSaver"
  fields :=
    [("path_or_buf", none), ("batch_size", some .none), ("parquet_writer_kwargs", some .none)]
  post := .nothing
  body :=
    [.asdict, .del "path_or_buf", .popUpdate "parquet_writer_kwargs"]
  calls :=
    [{ function := "ds.to_parquet", positional := ["path_or_buf"],
        named := [], pick := .all }]
  metadata := .file "path_or_buf"

/-- `LightGBMFileWriter`, lightgbm_extensions.py:20-46: `save_data` lines 32-42. The booster of a
model is taken first, which is left out. -/
def lightGBMFileWriter : Adapter where
  name := "lightgbm_extensions.LightGBMFileWriter"
  fields :=
    [("path", none), ("num_iteration", some .none), ("start_iteration", some (.int 0)),
      ("importance_type", some (.str "split"))]
  post := .nothing
  body := []
  calls :=
    [{ function := "data.save_model", positional := [],
        named := [("filename", "path"), ("num_iteration", "num_iteration"), ("start_iteration", "start_iteration"), ("importance_type", "importance_type")], pick := .only [] }]
  metadata := .file "path"

/-- `LightGBMFileReader`, lightgbm_extensions.py:50-68: `load_data` lines 59-64. -/
def lightGBMFileReader : Adapter where
  name := "lightgbm_extensions.LightGBMFileReader"
  fields :=
    [("path", none)]
  post := .nothing
  body := []
  calls :=
    [{ function := "type_", positional := [],
        named := [("model_file", "path")], pick := .only [] }]
  metadata := .file "path"

/-- `MatplotlibWriter`, matplotlib_extensions.py:18-78: `_get_saving_kwargs` lines 38-65,
`save_data` lines 67-70. -/
def matplotlibWriter : Adapter where
  name := "matplotlib_extensions.MatplotlibWriter"
  fields :=
    [("path", none), ("dpi", some .none), ("format", some .none), ("metadata", some .none),
      ("bbox_inches", some .none), ("pad_inches", some .none), ("facecolor", some .none),
      ("edgecolor", some .none), ("backend", some .none), ("orientation", some .none),
      ("papertype", some .none), ("transparent", some .none), ("bbox_extra_artists", some .none),
      ("pil_kwargs", some .none)]
  post := .nothing
  body :=
    [own "format", own "metadata", own "bbox_inches", own "pad_inches", own "facecolor",
      own "edgecolor", own "backend", own "orientation", own "papertype", own "transparent",
      own "bbox_extra_artists", own "pil_kwargs"]
  calls :=
    [{ function := "data.savefig", positional := [],
        named := [("fname", "path")], pick := .all }]
  metadata := .file "path"

/-- `NumpyNpyWriter`, numpy_extensions.py:18-42: `save_data` lines 27-34. -/
def numpyNpyWriter : Adapter where
  name := "numpy_extensions.NumpyNpyWriter"
  fields :=
    [("path", none), ("allow_pickle", some .none), ("fix_imports", some .none)]
  post := .nothing
  body := []
  calls :=
    [{ function := "np.save", positional := [],
        named := [("file", "path"), ("allow_pickle", "allow_pickle"), ("fix_imports", "fix_imports")], pick := .only [] }]
  metadata := .file "path"

/-- `NumpyNpyReader`, numpy_extensions.py:46-74: `load_data` lines 61-70. -/
def numpyNpyReader : Adapter where
  name := "numpy_extensions.NumpyNpyReader"
  fields :=
    [("path", none), ("mmap_mode", some .none), ("allow_pickle", some .none),
      ("fix_imports", some .none), ("encoding", some (.str "ASCII"))]
  post := .nothing
  body := []
  calls :=
    [{ function := "np.load", positional := [],
        named := [("file", "path"), ("mmap_mode", "mmap_mode"), ("allow_pickle", "allow_pickle"), ("fix_imports", "fix_imports"), ("encoding", "encoding")], pick := .only [] }]
  metadata := .file "path"

/-- `PlotlyStaticWriter`, plotly_extensions.py:16-56: `_get_saving_kwargs` lines 29-44,
`save_data` lines 46-48. -/
def plotlyStaticWriter : Adapter where
  name := "plotly_extensions.PlotlyStaticWriter"
  fields :=
    [("path", none), ("format", some .none), ("width", some .none), ("height", some .none),
      ("scale", some .none), ("validate", some (.bool true)), ("engine", some (.str "auto"))]
  post := .nothing
  body :=
    [own "format", own "width", own "height", own "scale", own "validate", own "engine"]
  calls :=
    [{ function := "data.write_image", positional := [],
        named := [("file", "path")], pick := .all }]
  metadata := .file "path"

/-- `PlotlyInteractiveWriter`, plotly_extensions.py:60-119: `_get_saving_kwargs` lines 81-107,
`save_data` lines 109-111. -/
def plotlyInteractiveWriter : Adapter where
  name := "plotly_extensions.PlotlyInteractiveWriter"
  fields :=
    [("path", none), ("config", some .none), ("auto_play", some (.bool true)),
      ("include_plotlyjs", some (.bool true)), ("include_mathjax", some (.bool false)),
      ("post_script", some .none), ("full_html", some (.bool true)),
      ("animation_opts", some .none), ("default_width", some (.str "100%")),
      ("default_height", some (.str "100%")), ("validate", some (.bool true)),
      ("auto_open", some (.bool true)), ("div_id", some .none)]
  post := .nothing
  body :=
    [own "config", own "auto_play", own "include_plotlyjs", own "include_mathjax",
      own "post_script", own "full_html", own "animation_opts", own "default_width",
      own "default_height", own "validate", own "auto_open", own "div_id"]
  calls :=
    [{ function := "data.write_html", positional := [],
        named := [("file", "path")], pick := .all }]
  metadata := .file "path"

/-- `SklearnPlotSaver`, sklearn_plot_extensions.py:48-101: `_get_saving_kwargs` lines 66-88,
`save_data` lines 90-97. The figure of a display object is drawn first, which is left out. -/
def sklearnPlotSaver : Adapter where
  name := "sklearn_plot_extensions.SklearnPlotSaver"
  fields :=
    [("path", none), ("dpi", some (.int 200)), ("format", some (.str "png")),
      ("metadata", some .none), ("bbox_inches", some .none), ("pad_inches", some (.obj true 0)),
      ("backend", some .none), ("papertype", some .none), ("transparent", some .none),
      ("bbox_extra_artists", some .none), ("pil_kwargs", some .none)]
  post := .nothing
  body :=
    [own "dpi", own "format", own "metadata", own "bbox_inches", own "pad_inches", own "backend",
      own "papertype", own "transparent", own "bbox_extra_artists", own "pil_kwargs"]
  calls :=
    [{ function := "figure.savefig", positional := ["path"],
        named := [], pick := .all }]
  metadata := .file "path"

/-- The adapters above (dlt_extensions.py, huggingface_extensions.py, lightgbm_extensions.py, matplotlib_extensions.py, numpy_extensions.py, plotly_extensions.py, sklearn_plot_extensions.py). -/
def otherAdapters : List Adapter :=
  [dltDestinationSaver, huggingFaceDSLoader, huggingFaceDSParquetSaver, lightGBMFileWriter,
    lightGBMFileReader, matplotlibWriter, numpyNpyWriter, numpyNpyReader, plotlyStaticWriter,
    plotlyInteractiveWriter, sklearnPlotSaver]

end Verif.Options
