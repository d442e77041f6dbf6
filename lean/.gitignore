.lake
lake-manifest.json
